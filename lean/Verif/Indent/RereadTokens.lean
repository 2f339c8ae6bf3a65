import Verif.Indent.RereadGroups
import Verif.LogicalFile.StmtSrcProps
/-!
# Reading an indented free-format file again (C74): the tokens
-/

namespace FLPR
namespace Spec

/-- The same token, possibly in another column. -/
def AlikeTok (t t' : Tok) : Prop := t' = { t with pos := t'.pos }

/-- The same logical line but for the columns of its tokens. -/
def AlikeLine (l l' : LLine) : Prop := l' = { l with frags := l'.frags } ∧ List.Forall₂ AlikeTok l.frags l'.frags

end Spec
open Spec

theorem alikeTok_token {t t' : Tok} (h : AlikeTok t t') : t'.token = t.token := by rw [h]
theorem alikeTok_text {t t' : Tok} (h : AlikeTok t t') : t'.text = t.text := by rw [h]

/-- The same columns as far as `linecolno` tells. -/
def ColOk (c c' : Int) : Prop := c' = c ∨ (0 < c ∧ 0 < c')

structure AccSame (a a' : LineAccum) : Prop where
  accum : a'.accum = a.accum
  offs : a'.offs = a.offs
  lines : a'.lines = a.lines
  cols : List.Forall₂ ColOk a.cols a'.cols

structure SamePiece (p p' : Piece) : Prop where
  line : p'.line = p.line
  main : p'.main = p.main
  right : p'.right > 0 ↔ p.right > 0
  col : ColOk p.col p'.col

theorem addLine_same {a a' : LineAccum} {p p' : Piece} (h : AccSame a a') (hp : SamePiece p p')
    (hl : a.offs ≠ [] → (p'.left > 0 ↔ p.left > 0)) : AccSame (a.addLine p) (a'.addLine p') := by
  have e : (if a'.offs ≠ [] ∧ p'.left > 0 then a'.accum ++ [' '] else a'.accum) =
      (if a.offs ≠ [] ∧ p.left > 0 then a.accum ++ [' '] else a.accum) := by
    rw [h.offs, h.accum]
    by_cases ho : a.offs = []
    · simp [ho]
    · simp only [hl ho]
  refine ⟨?_, ?_, ?_, ?_⟩
  · unfold LineAccum.addLine
    dsimp only
    rw [e, hp.main]
    simp only [hp.right]
  · unfold LineAccum.addLine
    dsimp only
    rw [e, h.offs]
  · unfold LineAccum.addLine
    dsimp only
    rw [h.lines, hp.line]
  · exact forall2_append h.cols (.cons hp.col .nil)

theorem foldl_same : ∀ {ps ps' : List Piece} {a a' : LineAccum}, AccSame a a' →
    List.Forall₂ (fun p p' => SamePiece p p' ∧ (p'.left > 0 ↔ p.left > 0)) ps ps' →
    AccSame (ps.foldl LineAccum.addLine a) (ps'.foldl LineAccum.addLine a')
  | _, _, _, _, h, .nil => h
  | p :: ps, p' :: ps', a, a', h, .cons hp hs => by
    rw [List.foldl_cons, List.foldl_cons]
    exact foldl_same (addLine_same h hp.1 (fun _ => hp.2)) hs

theorem forall2_getElem? {α β : Type} {R : α → β → Prop} : ∀ {l : List α} {l' : List β}, List.Forall₂ R l l' → ∀ {i : Nat} {a : α},
    l[i]? = some a → ∃ b, l'[i]? = some b ∧ R a b
  | _, _, .cons h _, 0, a, ha => by
    simp at ha
    subst ha
    exact ⟨_, rfl, h⟩
  | _, _, .cons _ hs, i + 1, a, ha => forall2_getElem? hs (by simpa using ha)

theorem linecolno_same {a a' : LineAccum} (h : AccSame a a') {off : Int} {x : Int × Int × Int × Int}
    (hx : a.linecolno off = .ok (some x)) : ∃ c', a'.linecolno off = .ok (some (x.1, c', x.2.2)) := by
  unfold LineAccum.linecolno at hx ⊢
  have hlli : a'.lli off = a.lli off := by unfold LineAccum.lli; rw [h.offs]
  rw [hlli, h.offs, h.lines]
  split at hx
  · cases hx
  · rename_i hne
    rw [if_neg hne]
    rbind hx with o ho
    rw [ho, Res.ok_bind]
    split at hx
    · rename_i hle
      rw [if_pos hle]
      rbind hx with ln hln
      rbind hx with c hc
      rw [hln, Res.ok_bind]
      have hc0 : a.cols[a.lli off]? = some c := by
        unfold vecGet at hc
        split at hc
        · rename_i y hy
          injection hc with hc
          rw [hy, hc]
        · cases hc
      obtain ⟨c', h1, h2⟩ := forall2_getElem? h.cols hc0
      have : vecGet a'.cols (a.lli off) = .ok c' := by unfold vecGet; rw [h1]
      rw [this, Res.ok_bind]
      split at hx
      · rename_i hpos
        have : c' + (off - o) > 0 := by
          rcases h2 with rfl | ⟨_, h2⟩
          · exact hpos
          · omega
        rw [if_pos this]
        simp only [Except.ok.injEq, Option.some.injEq] at hx
        subst hx
        exact ⟨_, rfl⟩
      · cases hx
    · cases hx

theorem unsmash_same {acc acc' : List Tok} {t t' : Tok} {r : List Tok} (ha : List.Forall₂ AlikeTok acc acc') (ht : AlikeTok t t')
    (h : Smash.unsmash (acc ++ [t]) = .ok r) : ∃ r', Smash.unsmash (acc' ++ [t']) = .ok r' ∧ List.Forall₂ AlikeTok r r' := by
  have hlow : t'.lowerText.1 = t.lowerText.1 ∧ AlikeTok t.lowerText.2 t'.lowerText.2 := by
    rw [ht]
    unfold Tok.lowerText
    dsimp only
    split
    · exact ⟨rfl, rfl⟩
    · exact ⟨rfl, rfl⟩
  unfold Smash.unsmash at h ⊢
  simp only [List.getLast?_append, List.getLast?_singleton, Option.some_or, List.dropLast_concat] at h ⊢
  rw [alikeTok_token ht]
  split at h
  · rename_i hne
    rw [if_pos hne]
    injection h with h
    subst h
    exact ⟨_, rfl, forall2_append ha (.cons ht .nil)⟩
  · rename_i hne
    rw [if_neg hne]
    rbind h with w hw
    rw [hlow.1, hw, Res.ok_bind]
    cases w with
    | none =>
      injection h with h
      subst h
      exact ⟨_, rfl, forall2_append ha (.cons hlow.2 .nil)⟩
    | some w =>
      dsimp only at h ⊢
      rbind h with sec hsec
      rw [alikeTok_text ht, hsec, Res.ok_bind]
      injection h with h
      subst h
      refine ⟨_, rfl, forall2_append ha (.cons ?_ (.cons ?_ .nil))⟩
      · rw [ht]; rfl
      · rw [ht]; rfl

theorem modifyLast_same {f : Tok → Tok} (hf : ∀ t t', AlikeTok t t' → AlikeTok (f t) (f t')) {a a' : List Tok}
    (ha : List.Forall₂ AlikeTok a a') : ∀ {r : List Tok}, modifyLast f a = .ok r →
    ∃ r', modifyLast f a' = .ok r' ∧ List.Forall₂ AlikeTok r r' := by
  induction ha with
  | nil => intro r h; cases h
  | @cons t t' a a' h1 hs ih =>
    intro r h
    cases hs with
    | nil =>
      rw [modifyLast] at h
      injection h with h
      subst h
      exact ⟨_, rfl, .cons (hf _ _ h1) .nil⟩
    | @cons u u' a a' h2 h3 =>
      rw [modifyLast] at h
      rbind h with q hq
      obtain ⟨r', k1, k2⟩ := ih hq
      injection h with h
      subst h
      refine ⟨t' :: r', ?_, .cons h1 k2⟩
      rw [modifyLast, k1]
      rfl

theorem lineTokensGo_same {la la' : LineAccum} (hla : AccSame la la') : ∀ (ls : List Flex.Lexeme) {start : Nat} {pre : Int}
    {acc acc' r : List Tok}, List.Forall₂ AlikeTok acc acc' → lineTokensGo la ls start pre acc = .ok r →
    ∃ r', lineTokensGo la' ls start pre acc' = .ok r' ∧ List.Forall₂ AlikeTok r r'
  | [], _, _, acc, acc', r, ha, h => by
    unfold lineTokensGo at h ⊢
    injection h with h
    subst h
    exact ⟨_, rfl, ha⟩
  | l :: ls, start, pre, acc, acc', r, ha, h => by
    unfold lineTokensGo at h ⊢
    rbind h with x hx
    cases x with
    | none => cases h
    | some x =>
      obtain ⟨li, ci, tli, tci⟩ := x
      obtain ⟨c', hx'⟩ := linecolno_same hla hx
      rw [hx', Res.ok_bind]
      dsimp only at h ⊢
      rbind h with acc2 hacc2
      have ht : AlikeTok ({ token := l.tag, line := li, pos := ci, text := l.text } : Tok)
          { token := l.tag, line := li, pos := c', text := l.text } := rfl
      have k : ∃ acc2', (if l.tag = Tag.TK_NAME then
          Smash.unsmash (acc' ++ [({ token := l.tag, line := li, pos := c', text := l.text } : Tok)])
          else .ok (acc' ++ [({ token := l.tag, line := li, pos := c', text := l.text } : Tok)])) = .ok acc2' ∧
          List.Forall₂ AlikeTok acc2 acc2' := by
        split at hacc2
        · rename_i hn
          rw [if_pos hn]
          exact unsmash_same ha ht hacc2
        · rename_i hn
          rw [if_neg hn]
          injection hacc2 with hacc2
          subst hacc2
          exact ⟨_, rfl, forall2_append ha (.cons ht .nil)⟩
      obtain ⟨acc2', k1, k2⟩ := k
      rw [k1, Res.ok_bind]
      rbind h with y hy
      cases y with
      | none => cases h
      | some y =>
        obtain ⟨u, v, eli, eci⟩ := y
        obtain ⟨d', hy'⟩ := linecolno_same hla hy
        rw [hy', Res.ok_bind]
        dsimp only at h ⊢
        rbind h with next hnext
        rw [hla.accum, hnext, Res.ok_bind]
        rbind h with acc3 hacc3
        obtain ⟨acc3', m1, m2⟩ := modifyLast_same (fun t t' (ht : AlikeTok t t') => by rw [ht]; rfl) k2 hacc3
        rw [m1, Res.ok_bind]
        exact lineTokensGo_same hla ls m2 h

theorem initStmtsGo_same : ∀ {ts ts' : List Tok}, List.Forall₂ AlikeTok ts ts' → ∀ (i : Nat) (b : Option Nat),
    initStmtsGo i b ts' = initStmtsGo i b ts
  | _, _, .nil, i, b => rfl
  | _, _, .cons h hs, i, b => by
    unfold initStmtsGo
    unfold Tok.isSemi
    rw [alikeTok_token h]
    simp only [initStmtsGo_same hs]

theorem tokenize_same {st st' : Flex.State} {l r : LLine} {la la' : LineAccum} (hla : AccSame la la') (fs : List FileLine)
    (h : LLine.tokenize st l la = .ok (r, st')) :
    ∃ r', LLine.tokenize st { l with layout := fs } la' = .ok (r', st') ∧ AlikeLine { r with layout := fs } r' := by
  unfold LLine.tokenize at h ⊢
  rbind h with q hq
  rw [hla.accum, hq, Res.ok_bind]
  rbind h with fr hfr
  obtain ⟨fr', k1, k2⟩ := lineTokensGo_same hla q.1 .nil hfr
  rw [k1, Res.ok_bind]
  simp only [Except.ok.injEq, Prod.mk.injEq] at h
  obtain ⟨rfl, rfl⟩ := h
  refine ⟨_, rfl, ?_, k2⟩
  unfold LLine.initStmts
  dsimp only
  rw [initStmtsGo_same k2]

/-! ### The pieces -/

theorem mainFirstCol_ok {f f' : FileLine} (hb : f'.bits = f.bits) (hm : f'.main_txt = f.main_txt) : ColOk f.mainFirstCol f'.mainFirstCol := by
  unfold FileLine.mainFirstCol ColOk
  rw [hm, hb]
  split
  · left; rfl
  · right; omega

theorem length_pos_same {a b : Str} (h1 : a ≠ [] → b ≠ []) (h2 : a = [] → b = []) : ((b.length : Int) > 0 ↔ (a.length : Int) > 0) := by
  cases a with
  | nil => rw [h2 rfl]
  | cons x a =>
    have := List.length_pos_iff.mpr (h1 (by simp))
    simp only [List.length_cons]
    omega

theorem shift_bits {b : Bool} {f f' : FileLine} (hf : Fine f) (hs : Shift b f f') : f'.bits = f.bits := by
  cases hF : f.isFortran with
  | true =>
    obtain ⟨pd, pc, hok⟩ := hf.1 hF
    exact (hs.fortran pd pc hok).2.1.bits
  | false =>
    cases hC : f.bits.comment with
    | true =>
      obtain ⟨pc, hok⟩ := hf.2 hC
      exact (hs.comment pc hok).2.1
    | false => rw [hs.other hF hC]

theorem shift_piece {b : Bool} {f f' : FileLine} (hf : Fine f) (hst : SteadyLine b f) (hs : Shift b f f') (ht : f.isTrivial = false) :
    SamePiece (pieceOf f) (pieceOf f') ∧ (b = true → ((pieceOf f').left > 0 ↔ (pieceOf f).left > 0)) ∧
    (f.bits.label = true → f'.left_txt = f.left_txt) := by
  cases hF : f.isFortran with
  | true =>
    obtain ⟨pd, pc, hok⟩ := hf.1 hF
    obtain ⟨a1, a2, a3, a4, a5, a6⟩ := hs.fortran pd pc hok
    refine ⟨⟨a2.linenum, a2.main, ?_, mainFirstCol_ok a2.bits a2.main⟩, fun hb => ?_, fun hl => ?_⟩
    · refine length_pos_same a3 (fun h => a4 h (fun hbang => ?_))
      exact hst.trail hF hbang h
    · cases hc : f.bits.continuation with
      | true =>
        obtain ⟨e1, e2⟩ := a5 hc
        refine length_pos_same (fun h => absurd e2 h) (fun _ => e1)
      | false =>
        have hne := hst.gap hF hb hc
        exact length_pos_same (fun _ => a6 hb hc hne) (fun h => absurd h hne)
    · refine a2.label ?_
      have := hok.left
      generalize hb : ({ f.bits with continued := false } : Bits) = B at this
      have e1 : f.bits.label = B.label := by rw [← hb]
      have e2 : f.bits.continuation = B.continuation := by rw [← hb]
      rw [e1] at hl
      rw [e2]
      generalize f.left_txt = lt, f.left_space = ls, f.main_txt = m at this
      cases this <;> first | rfl | cases hl
  | false =>
    have hC : f.bits.comment = false := by
      unfold FileLine.isTrivial at ht
      simp at ht
      exact ht.1
    have := hs.other hF hC
    subst this
    exact ⟨⟨rfl, rfl, Iff.rfl, Or.inl rfl⟩, fun _ => Iff.rfl, fun _ => rfl⟩

theorem pieces_same : ∀ {fs fs' : List FileLine}, List.Forall₂ (Shift true) fs fs' → (∀ f ∈ fs, Fine f) → (∀ f ∈ fs, SteadyLine true f) →
    List.Forall₂ (fun p p' => SamePiece p p' ∧ (p'.left > 0 ↔ p.left > 0)) ((fs.filter (fun f => !f.isTrivial)).map pieceOf)
      ((fs'.filter (fun f => !f.isTrivial)).map pieceOf)
  | _, _, .nil, _, _ => .nil
  | f :: fs, f' :: fs', .cons h hs, hf, hst => by
    have ih := pieces_same hs (fun g hg => hf g (by simp [hg])) (fun g hg => hst g (by simp [hg]))
    have hb := shift_bits (hf f (by simp)) h
    have ht : f'.isTrivial = f.isTrivial := by unfold FileLine.isTrivial; rw [hb]
    cases htr : f.isTrivial with
    | true =>
      rw [List.filter_cons_of_neg (by simp [htr]), List.filter_cons_of_neg (by simp [ht, htr])]
      exact ih
    | false =>
      rw [List.filter_cons_of_pos (by simp [htr]), List.filter_cons_of_pos (by simp [ht, htr])]
      obtain ⟨k1, k2, _⟩ := shift_piece (hf f (by simp)) (hst f (by simp)) h htr
      exact .cons ⟨k1, k2 rfl⟩ ih

theorem accum_same {fs fs' : List FileLine} (h : ShiftAll fs fs') (hf : ∀ f ∈ fs, Fine f) (hst : SteadyLayout fs) :
    AccSame (accumAll ((fs.filter (fun f => !f.isTrivial)).map pieceOf)) (accumAll ((fs'.filter (fun f => !f.isTrivial)).map pieceOf)) := by
  have nil : AccSame {} {} := ⟨rfl, rfl, rfl, .nil⟩
  cases h with
  | nil => exact nil
  | @cons f f' fs fs' h hs =>
    have ih := pieces_same hs (fun g hg => hf g (by simp [hg])) hst.2
    have hb := shift_bits (hf f (by simp)) h
    have ht : f'.isTrivial = f.isTrivial := by unfold FileLine.isTrivial; rw [hb]
    unfold accumAll
    cases htr : f.isTrivial with
    | true =>
      rw [List.filter_cons_of_neg (by simp [htr]), List.filter_cons_of_neg (by simp [ht, htr])]
      exact foldl_same nil ih
    | false =>
      rw [List.filter_cons_of_pos (by simp [htr]), List.filter_cons_of_pos (by simp [ht, htr])]
      obtain ⟨k1, _, _⟩ := shift_piece (hf f (by simp)) hst.1 h htr
      simp only [List.map_cons, List.foldl_cons]
      exact foldl_same (addLine_same nil k1 (fun h => absurd rfl h)) ih

theorem label_trivial {f : FileLine} (hf : Fine f) (hb : f.bits.blank = true → f.bits.label = false) (hl : f.bits.label = true) : f.isTrivial = false := by
  unfold FileLine.isTrivial
  cases hC : f.bits.comment with
  | true =>
    obtain ⟨pc, hok⟩ := hf.2 hC
    rw [hok.bits] at hl
    cases hl
  | false =>
    cases hB : f.bits.blank with
    | true => rw [hb hB] at hl; cases hl
    | false => rfl

/-- The line that is made of moved lines. -/
theorem buildLine_same {st st' : Flex.State} {g : Group} {l : LLine} {fs' : List FileLine} (hsh : ShiftAll g.layout fs')
    (hf : ∀ f ∈ g.layout, Fine f) (hst : SteadyLayout g.layout) (h : buildLine st g = .ok (l, st')) :
    ∃ l', buildLine st { g with layout := fs' } = .ok (l', st') ∧ AlikeLine { l with layout := fs' } l' := by
  unfold buildLine at h ⊢
  rbind h with q hq
  have key : ∃ q', LLine.ofLines st fs' = .ok (q', q.2) ∧ AlikeLine { q.1 with layout := fs' } q' := by
    have hacc := accum_same hsh hf hst
    obtain ⟨q1, q2⟩ := q
    unfold LLine.ofLines LLine.initFromLayout at hq ⊢
    dsimp only at hq ⊢
    cases hg : g.layout with
    | nil => rw [hg] at hq; cases hq
    | cons f fs =>
      rw [hg] at hsh hf hst hq hacc
      cases hsh with
      | @cons _ f' _ fs' h1 h2 =>
        have hb := shift_bits (hf f (by simp)) h1
        dsimp only at hq ⊢
        rw [hb]
        split at hq
        · rename_i hl
          rw [if_pos hl]
          have hlt : f'.left_txt = f.left_txt := by
            cases ht : f.isTrivial with
            | false => exact (shift_piece (hf f (by simp)) hst.1 h1 ht).2.2 hl
            | true =>
              cases hC : f.bits.comment with
              | true =>
                obtain ⟨pc, hok⟩ := (hf f (by simp)).2 hC
                rw [hok.bits] at hl
                cases hl
              | false =>
                have : f.isFortran = false := by unfold FileLine.isFortran; rw [ht]; rfl
                rw [h1.other this hC]
          rw [hlt]
          split at hq
          · cases hq
          · rename_i hne
            rw [if_neg hne]
            rbind hq with v hv
            rw [hv, Res.ok_bind]
            exact tokenize_same (l := { layout := f :: fs, label := v }) hacc (f' :: fs') hq
        · rename_i hl
          rw [if_neg hl]
          exact tokenize_same (l := { layout := f :: fs, label := 0 }) hacc (f' :: fs') hq
  obtain ⟨q', k1, k2, k3⟩ := key
  simp only [Except.ok.injEq, Prod.mk.injEq] at h
  obtain ⟨rfl, rfl⟩ := h
  dsimp only
  rw [k1, Res.ok_bind]
  refine ⟨_, rfl, ?_, k3⟩
  dsimp only
  rw [k2]

theorem buildLines_same : ∀ {gs : List Group} {Ls : List (List FileLine)} {st st' : Flex.State} {lines : List LLine},
    List.Forall₂ (fun g L => ShiftAll g.layout L ∧ SteadyLayout g.layout) gs Ls → (∀ g ∈ gs, ∀ f ∈ g.layout, Fine f) →
    buildLines st gs = .ok (lines, st') →
    ∃ lines', buildLines st (List.zipWith (fun g L => { g with layout := L }) gs Ls) = .ok (lines', st') ∧
      List.Forall₂ AlikeLine (List.zipWith (fun l L => ({ l with layout := L } : LLine)) lines Ls) lines'
  | _, _, st, st', lines, .nil, _, h => by
    simp only [buildLines, Except.ok.injEq, Prod.mk.injEq] at h
    obtain ⟨rfl, rfl⟩ := h
    exact ⟨[], rfl, .nil⟩
  | g :: gs, L :: Ls, st, st', lines, .cons h1 h2, hf, h => by
    unfold buildLines at h
    rbind h with r hr
    rbind h with rs hrs
    simp only [Except.ok.injEq, Prod.mk.injEq] at h
    obtain ⟨rfl, rfl⟩ := h
    obtain ⟨l', k1, k2⟩ := buildLine_same h1.1 (hf g (by simp)) h1.2 (st' := r.2) (l := r.1) hr
    obtain ⟨lines', k3, k4⟩ := buildLines_same h2 (fun g hg => hf g (by simp [hg])) (st' := rs.2) (lines := rs.1) hrs
    refine ⟨l' :: lines', ?_, .cons k2 k4⟩
    rw [List.zipWith_cons_cons]
    unfold buildLines
    rw [k1, Res.ok_bind]
    dsimp only
    rw [k3]
    rfl

end FLPR
