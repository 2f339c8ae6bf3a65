import Verif.Case.Lexer
/-!
# Case of letters: the tokens and statements of a logical line
-/

namespace FLPR
open Spec SP

/-! ### The text of a logical line -/

structure CaseAcc (a a' : LineAccum) : Prop where
  offs : a'.offs = a.offs
  lines : a'.lines = a.lines
  cols : a'.cols = a.cols
  accum : SameLetters a.accum a'.accum

theorem pieceOf_case {f f' : FileLine} (h : CaseLine f f') : pieceOf f' = { pieceOf f with main := f'.main_txt } := by
  unfold pieceOf FileLine.mainFirstCol
  dsimp only
  simp only [h.linenum, sl_length h.left_space, sl_length h.right_space, sl_length h.left_txt, h.bits, sl_isEmpty h.main_txt]

theorem addLine_case {a a' : LineAccum} (h : CaseAcc a a') {f f' : FileLine} (hf : CaseLine f f') :
    CaseAcc (a.addLine (pieceOf f)) (a'.addLine (pieceOf f')) := by
  rw [pieceOf_case hf]
  have hm : SameLetters (pieceOf f).main f'.main_txt := hf.main_txt
  generalize pieceOf f = p at hm
  unfold LineAccum.addLine
  dsimp only
  rw [h.offs]
  have hacc : SameLetters (if a.offs ≠ [] ∧ p.left > 0 then a.accum ++ [' '] else a.accum)
      (if a.offs ≠ [] ∧ p.left > 0 then a'.accum ++ [' '] else a'.accum) := by
    split
    · exact sl_append h.accum (sl_refl _)
    · exact h.accum
  generalize (if a.offs ≠ [] ∧ p.left > 0 then a.accum ++ [' '] else a.accum) = x at hacc
  generalize (if a.offs ≠ [] ∧ p.left > 0 then a'.accum ++ [' '] else a'.accum) = y at hacc
  refine ⟨by simp only [sl_length hacc], by simp only [h.lines], by simp only [h.cols], ?_⟩
  dsimp only
  split
  · exact sl_append (sl_append hacc hm) (sl_refl _)
  · exact sl_append hacc hm

theorem accumFold_case : ∀ {fs fs' : List FileLine}, List.Forall₂ CaseLine fs fs' → ∀ {a a' : LineAccum}, CaseAcc a a' →
    CaseAcc ((fs.map pieceOf).foldl LineAccum.addLine a) ((fs'.map pieceOf).foldl LineAccum.addLine a')
  | _, _, .nil, _, _, h => h
  | _, _, .cons hf hfs, _, _, h => accumFold_case hfs (addLine_case h hf)

theorem filter_case : ∀ {fs fs' : List FileLine}, List.Forall₂ CaseLine fs fs' →
    List.Forall₂ CaseLine (fs.filter (fun f => !f.isTrivial)) (fs'.filter (fun f => !f.isTrivial))
  | _, _, .nil => .nil
  | _, _, .cons hf hfs => by
    rw [List.filter_cons, List.filter_cons, caseLine_trivial hf]
    split
    · exact .cons hf (filter_case hfs)
    · exact filter_case hfs

theorem accumAll_case {fs fs' : List FileLine} (h : List.Forall₂ CaseLine fs fs') :
    CaseAcc (accumAll ((fs.filter (fun f => !f.isTrivial)).map pieceOf)) (accumAll ((fs'.filter (fun f => !f.isTrivial)).map pieceOf)) :=
  accumFold_case (filter_case h) ⟨rfl, rfl, rfl, sl_refl _⟩

theorem linecolno_case {a a' : LineAccum} (h : CaseAcc a a') (off : Int) : a'.linecolno off = a.linecolno off := by
  unfold LineAccum.linecolno LineAccum.lli
  rw [h.offs, h.lines, h.cols]

/-! ### Tokens -/

theorem caseTok_lowerText {t t' : Tok} (h : CaseTok t t') : t'.lowerText.1 = t.lowerText.1 ∧ CaseTok t.lowerText.2 t'.lowerText.2 := by
  unfold Tok.lowerText
  rw [h.lower]
  have ht : t'.text.map lowChar = t.text.map lowChar := h.text
  have hr := h.rest
  split
  · rw [ht]
    refine ⟨rfl, ?_, h.text, rfl⟩
    dsimp only
    rw [hr]
  · exact ⟨rfl, h⟩

theorem caseTok_token {t t' : Tok} (h : CaseTok t t') : t'.token = t.token := by rw [h.rest]

theorem forall2_getLast? {α : Type} {Q : α → α → Prop} : ∀ {l l' : List α}, List.Forall₂ Q l l' →
    (l.getLast? = none ∧ l'.getLast? = none) ∨ ∃ x y, l.getLast? = some x ∧ l'.getLast? = some y ∧ Q x y
  | _, _, .nil => .inl ⟨rfl, rfl⟩
  | _, _, .cons h .nil => .inr ⟨_, _, rfl, rfl, h⟩
  | _, _, .cons _ (.cons h hs) => by
    rcases forall2_getLast? (.cons h hs) with ⟨h1, h2⟩ | ⟨x, y, h1, h2, h3⟩
    · simp at h1
    · exact .inr ⟨x, y, by rw [List.getLast?_cons_cons]; exact h1, by rw [List.getLast?_cons_cons]; exact h2, h3⟩

theorem forall2_dropLast {α : Type} {Q : α → α → Prop} : ∀ {l l' : List α}, List.Forall₂ Q l l' → List.Forall₂ Q l.dropLast l'.dropLast
  | _, _, .nil => .nil
  | _, _, .cons _ .nil => .nil
  | _, _, .cons h (.cons h1 hs) => .cons h (forall2_dropLast (.cons h1 hs))

theorem forall2_concat {α : Type} {Q : α → α → Prop} : ∀ {l l' m m' : List α}, List.Forall₂ Q l l' → List.Forall₂ Q m m' →
    List.Forall₂ Q (l ++ m) (l' ++ m')
  | _, _, _, _, .nil, h => h
  | _, _, _, _, .cons h hs, h' => .cons h (forall2_concat hs h')

theorem unsmash_case {l l' : List Tok} (h : List.Forall₂ CaseTok l l') :
    BothWays (List.Forall₂ CaseTok) (Smash.unsmash l) (Smash.unsmash l') := by
  unfold Smash.unsmash
  rcases forall2_getLast? h with ⟨h1, h2⟩ | ⟨t, t', h1, h2, h3⟩
  · rw [h1, h2]
    exact BW.ok h
  · rw [h1, h2]
    dsimp only
    rw [caseTok_token h3]
    refine BW.ite (fun _ => BW.ok h) (fun _ => ?_)
    rw [(caseTok_lowerText h3).1]
    refine BW.bind (BW.same _) (fun w w' hw => ?_)
    cases hw
    cases w with
    | none => exact BW.ok (forall2_concat (forall2_dropLast h) (.cons (caseTok_lowerText h3).2 .nil))
    | some w =>
      dsimp only
      refine BW.bind (substrFrom_case h3.text w.splitpos) (fun s s' hs => BW.ok ?_)
      refine forall2_concat (forall2_dropLast h) (.cons ⟨?_, sl_take h3.text _, rfl⟩ (.cons ⟨?_, hs, rfl⟩ .nil))
      · rw [h3.rest]
      · rw [h3.rest]

theorem modifyLast_case (g : Tok → Tok) (hg : ∀ t t', CaseTok t t' → CaseTok (g t) (g t')) {l l' : List Tok} (h : List.Forall₂ CaseTok l l') :
    BothWays (List.Forall₂ CaseTok) (modifyLast g l) (modifyLast g l') := by
  induction h with
  | nil => exact BW.err _
  | cons h hs ih =>
    cases hs with
    | nil => exact BW.ok (.cons (hg _ _ h) .nil)
    | cons h1 hs =>
      rw [modifyLast.eq_def, modifyLast.eq_def]
      exact BW.bind ih (fun r r' hr => BW.ok (.cons h hr))

theorem lineTokensGo_case {la la' : LineAccum} (hla : CaseAcc la la') : ∀ {ls ls' : List Flex.Lexeme}, List.Forall₂ Flex.CaseLex ls ls' →
    ∀ (start : Nat) (pre : Int) {acc acc' : List Tok}, List.Forall₂ CaseTok acc acc' →
    BothWays (List.Forall₂ CaseTok) (lineTokensGo la ls start pre acc) (lineTokensGo la' ls' start pre acc')
  | _, _, .nil, start, pre, acc, acc', h => BW.ok h
  | _, _, .cons (a := l) (b := l') hl hls, start, pre, acc, acc', h => by
    rw [lineTokensGo, lineTokensGo]
    rw [linecolno_case hla, hl.tag, hl.stop, linecolno_case hla]
    refine BW.bind (BW.same _) (fun o o' ho => ?_)
    cases ho
    cases o with
    | none => exact BW.err _
    | some x =>
      obtain ⟨li, ci, tli, tci⟩ := x
      dsimp only
      refine BW.bind (Q := List.Forall₂ CaseTok) ?_ (fun acc2 acc2' h2 => ?_)
      · have hc : List.Forall₂ CaseTok (acc ++ [{ token := l.tag, line := li, pos := ci, text := l.text }])
            (acc' ++ [{ token := l.tag, line := li, pos := ci, text := l'.text }]) :=
          forall2_concat h (.cons ⟨rfl, hl.text, rfl⟩ .nil)
        exact BW.ite (fun _ => unsmash_case hc) (fun _ => BW.ok hc)
      · refine BW.bind (BW.same _) (fun o o' ho => ?_)
        cases ho
        cases o with
        | none => exact BW.err _
        | some y =>
          obtain ⟨_, _, eli, eci⟩ := y
          dsimp only
          rw [scanSpaces_case l.stop (sl_drop hla.accum l.stop)]
          refine BW.bind (BW.same _) (fun n n' hn => ?_)
          cases hn
          refine BW.bind (modifyLast_case _ ?_ h2) (fun r r' hr => lineTokensGo_case hla hls _ _ hr)
          intro t t' ht
          refine ⟨?_, ht.text, ht.lower⟩
          dsimp only
          rw [ht.rest]

/-! ### Lines -/

theorem initStmtsGo_case : ∀ {ts ts' : List Tok}, List.Forall₂ CaseTok ts ts' → ∀ (i : Nat) (b : Option Nat),
    initStmtsGo i b ts' = initStmtsGo i b ts
  | _, _, .nil, i, b => rfl
  | _, _, .cons (a := t) (b := t') h hs, i, b => by
    have e : t'.isSemi = t.isSemi := by
      unfold Tok.isSemi
      rw [caseTok_token h]
    rw [initStmtsGo, initStmtsGo, e, initStmtsGo_case hs, initStmtsGo_case hs]

/-- A line and the state of the scanner, related. -/
def CaseBuilt (x y : LLine × Flex.State) : Prop := CaseLLine x.1 y.1 ∧ y.2 = x.2

theorem tokenize_case (st : Flex.State) {l l' : LLine} (hr : l' = { l with layout := l'.layout, frags := l'.frags })
    (hl : List.Forall₂ CaseLine l.layout l'.layout) {la la' : LineAccum} (hla : CaseAcc la la') :
    BothWays CaseBuilt (LLine.tokenize st l la) (LLine.tokenize st l' la') := by
  unfold LLine.tokenize
  refine BW.bind (Flex.scan_case st hla.accum) (fun r r' hx => ?_)
  refine BW.bind (lineTokensGo_case hla hx.1 0 0 .nil) (fun fr fr' hf => BW.ok ?_)
  refine ⟨⟨?_, hl, hf⟩, hx.2⟩
  unfold LLine.initStmts
  dsimp only
  rw [initStmtsGo_case hf, hr]

theorem stoi_case {a b : Str} (h : SameLetters a b) : stoi b = stoi a := by
  have h : b.map lowChar = a.map lowChar := h
  rw [← stoi_low b, h, stoi_low]

theorem initFromLayout_case (st : Flex.State) {l l' : LLine} (hr : l' = { l with layout := l'.layout, frags := l'.frags })
    (hl : List.Forall₂ CaseLine l.layout l'.layout) :
    BothWays CaseBuilt (LLine.initFromLayout st l) (LLine.initFromLayout st l') := by
  unfold LLine.initFromLayout
  have hla := accumAll_case hl
  dsimp only
  generalize accumAll ((l.layout.filter (fun f => !f.isTrivial)).map pieceOf) = la at hla
  generalize accumAll ((l'.layout.filter (fun f => !f.isTrivial)).map pieceOf) = la' at hla
  have ht : ∀ v, BothWays CaseBuilt (LLine.tokenize st { l with label := v } la) (LLine.tokenize st { l' with label := v } la') := by
    intro v
    refine tokenize_case st (l := { l with label := v }) (l' := { l' with label := v }) ?_ hl hla
    dsimp only
    rw [hr]
  generalize hA : l.layout = A at hl
  generalize hB : l'.layout = B at hl
  cases hl with
  | nil => exact BW.err _
  | cons hf hfs =>
    dsimp only
    rw [hf.bits]
    simp only [sl_isEmpty hf.left_txt, stoi_case hf.left_txt]
    refine BW.ite (fun _ => BW.ite (fun _ => BW.err _) (fun _ => ?_)) (fun _ => ?_)
    · refine BW.bind (BW.same _) (fun v v' hv => ?_)
      cases hv
      have := ht v
      rwa [hA, hB] at this
    · have := ht 0
      rwa [hA, hB] at this

theorem buildLine_case (st : Flex.State) {g g' : Group} (h : CaseGroup g g') : BothWays CaseBuilt (buildLine st g) (buildLine st g') := by
  unfold buildLine LLine.ofLines
  refine BW.bind (initFromLayout_case st (l := { layout := g.layout }) (l' := { layout := g'.layout }) rfl h.layout) (fun r r' hr => BW.ok ?_)
  refine ⟨⟨?_, hr.1.layout, hr.1.frags⟩, hr.2⟩
  dsimp only
  rw [hr.1.rest, h.cat, h.reformat]

theorem buildLines_case : ∀ {gs gs' : List Group}, List.Forall₂ CaseGroup gs gs' → ∀ (st : Flex.State),
    BothWays (fun x y => List.Forall₂ CaseLLine x.1 y.1 ∧ y.2 = x.2) (buildLines st gs) (buildLines st gs')
  | _, _, .nil, st => BW.ok ⟨.nil, rfl⟩
  | _, _, .cons hg hgs, st => by
    rw [buildLines, buildLines]
    refine BW.bind (buildLine_case st hg) (fun r r' hr => ?_)
    rw [hr.2]
    exact BW.bind (buildLines_case hgs r.2) (fun q q' hq => BW.ok ⟨.cons hr.1 hq.1, hq.2⟩)

end FLPR
