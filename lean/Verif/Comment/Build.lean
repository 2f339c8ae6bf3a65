import Verif.Comment.Spec
import Verif.Comment.Lines
import Verif.Case.Tokens
/-!
# Comment lines: the tokens and statements of the lines
-/

namespace FLPR
open Spec SP PP PF

theorem tokElsewhere_lowerText {t t' : Tok} (h : TokElsewhere t t') : t'.lowerText.1 = t.lowerText.1 ∧ TokElsewhere t.lowerText.2 t'.lowerText.2 := by
  obtain ⟨tk, ln, ps, tx, lw, sp, pr, po⟩ := t
  obtain ⟨tk', ln', ps', tx', lw', sp', pr', po'⟩ := t'
  simp only [TokElsewhere, Tok.mk.injEq] at h
  obtain ⟨rfl, _, rfl, rfl, rfl, rfl, rfl, rfl⟩ := h
  unfold Tok.lowerText
  split
  · exact ⟨rfl, rfl⟩
  · exact ⟨rfl, rfl⟩

theorem tokElsewhere_token {t t' : Tok} (h : TokElsewhere t t') : t'.token = t.token := by rw [h]
theorem tokElsewhere_text {t t' : Tok} (h : TokElsewhere t t') : t'.text = t.text := by rw [h]

theorem tokElsewhere_equiv {t t' : Tok} (h : TokElsewhere t t') : EquivTok t t' :=
  ⟨tokElsewhere_token h, by rw [tokElsewhere_text h], (tokElsewhere_lowerText h).1⟩

/-- The same text, on other lines. -/
structure SameAcc (a a' : LineAccum) : Prop where
  accum : a'.accum = a.accum
  offs : a'.offs = a.offs
  cols : a'.cols = a.cols
  lines : a'.lines.length = a.lines.length

theorem codeLine_piece {f f' : FileLine} (h : CodeLine f f') : pieceOf f' = { pieceOf f with line := f'.linenum } := by
  rw [h.rest]
  rfl

theorem addLine_code {a a' : LineAccum} (h : SameAcc a a') {f f' : FileLine} (hf : CodeLine f f') :
    SameAcc (a.addLine (pieceOf f)) (a'.addLine (pieceOf f')) := by
  rw [codeLine_piece hf]
  generalize pieceOf f = p
  unfold LineAccum.addLine
  dsimp only
  rw [h.offs, h.accum, h.cols]
  exact ⟨rfl, rfl, rfl, by simp [h.lines]⟩

theorem accumFold_code : ∀ {fs fs' : List FileLine}, List.Forall₂ CodeLine fs fs' → ∀ {a a' : LineAccum}, SameAcc a a' →
    SameAcc ((fs.map pieceOf).foldl LineAccum.addLine a) ((fs'.map pieceOf).foldl LineAccum.addLine a')
  | _, _, .nil, _, _, h => h
  | _, _, .cons hf hfs, _, _, h => accumFold_code hfs (addLine_code h hf)

theorem filter_code : ∀ {fs fs' : List FileLine}, List.Forall₂ CodeLine fs fs' →
    List.Forall₂ CodeLine (fs.filter (fun f => !f.isTrivial)) (fs'.filter (fun f => !f.isTrivial))
  | _, _, .nil => .nil
  | _, _, .cons hf hfs => by
    rw [List.filter_cons, List.filter_cons, codeLine_trivial hf]
    split
    · exact .cons hf (filter_code hfs)
    · exact filter_code hfs

/-- The same place but for the line. -/
def SamePlace (o o' : Option (Int × Int × Int × Int)) : Prop :=
  match o, o' with
  | none, none => True
  | some x, some y => y.2 = x.2
  | _, _ => False

theorem linecolno_code {a a' : LineAccum} (h : SameAcc a a') (off : Int) : BothWays SamePlace (a.linecolno off) (a'.linecolno off) := by
  unfold LineAccum.linecolno LineAccum.lli
  rw [h.offs, h.cols]
  refine BW.ite (fun _ => BW.ok trivial) (fun _ => ?_)
  refine BW.bind (BW.same _) (fun o o' ho => ?_)
  cases ho
  refine BW.ite (fun _ => ?_) (fun _ => BW.err _)
  refine BW.bind (Q := fun _ _ => True) ?_ (fun _ _ _ => ?_)
  · unfold vecGet
    generalize (a.offs.tail.takeWhile (fun o => decide (o ≤ off))).length = i
    have hl := h.lines
    by_cases hi : i < a.lines.length
    · rw [List.getElem?_eq_getElem hi, List.getElem?_eq_getElem (by omega)]
      exact BW.ok trivial
    · rw [List.getElem?_eq_none (by omega), List.getElem?_eq_none (by omega)]
      exact BW.err _
  · refine BW.bind (BW.same _) (fun c c' hc => ?_)
    cases hc
    exact BW.ite (fun _ => BW.ok rfl) (fun _ => BW.err _)

theorem unsmash_code {l l' : List Tok} (h : List.Forall₂ TokElsewhere l l') :
    BothWays (List.Forall₂ TokElsewhere) (Smash.unsmash l) (Smash.unsmash l') := by
  unfold Smash.unsmash
  rcases forall2_getLast? h with ⟨h1, h2⟩ | ⟨t, t', h1, h2, h3⟩
  · rw [h1, h2]
    exact BW.ok h
  · rw [h1, h2]
    dsimp only
    rw [tokElsewhere_token h3]
    refine BW.ite (fun _ => BW.ok h) (fun _ => ?_)
    rw [(tokElsewhere_lowerText h3).1]
    refine BW.bind (BW.same _) (fun w w' hw => ?_)
    cases hw
    cases w with
    | none => exact BW.ok (forall2_concat (forall2_dropLast h) (.cons (tokElsewhere_lowerText h3).2 .nil))
    | some w =>
      dsimp only
      rw [tokElsewhere_text h3]
      refine BW.bind (BW.same _) (fun s s' hs => BW.ok ?_)
      cases hs
      obtain ⟨tk, ln, ps, tx, lw, sp, pr, po⟩ := t
      obtain ⟨tk', ln', ps', tx', lw', sp', pr', po'⟩ := t'
      simp only [TokElsewhere, Tok.mk.injEq] at h3
      obtain ⟨rfl, _, rfl, rfl, rfl, rfl, rfl, rfl⟩ := h3
      exact forall2_concat (forall2_dropLast h) (.cons rfl (.cons rfl .nil))

theorem modifyLast_code (g : Tok → Tok) (hg : ∀ t t', TokElsewhere t t' → TokElsewhere (g t) (g t')) {l l' : List Tok}
    (h : List.Forall₂ TokElsewhere l l') : BothWays (List.Forall₂ TokElsewhere) (modifyLast g l) (modifyLast g l') := by
  induction h with
  | nil => exact BW.err _
  | cons h hs ih =>
    cases hs with
    | nil => exact BW.ok (.cons (hg _ _ h) .nil)
    | cons h1 hs =>
      rw [modifyLast.eq_def, modifyLast.eq_def]
      exact BW.bind ih (fun r r' hr => BW.ok (.cons h hr))

theorem lineTokensGo_code {la la' : LineAccum} (hla : SameAcc la la') : ∀ (ls : List Flex.Lexeme) (start : Nat) (pre : Int) {acc acc' : List Tok},
    List.Forall₂ TokElsewhere acc acc' →
    BothWays (List.Forall₂ TokElsewhere) (lineTokensGo la ls start pre acc) (lineTokensGo la' ls start pre acc')
  | [], start, pre, acc, acc', h => BW.ok h
  | l :: ls, start, pre, acc, acc', h => by
    rw [lineTokensGo, lineTokensGo]
    refine BW.bind (linecolno_code hla start) (fun o o' ho => ?_)
    cases o with
    | none =>
      cases o' with
      | none => exact BW.err _
      | some _ => exact ho.elim
    | some x =>
      cases o' with
      | none => exact ho.elim
      | some x' =>
        obtain ⟨li, ci, tli, tci⟩ := x
        obtain ⟨li', q⟩ := x'
        have ho : q = (ci, tli, tci) := ho
        subst ho
        dsimp only
        refine BW.bind (Q := List.Forall₂ TokElsewhere) ?_ (fun acc2 acc2' h2 => ?_)
        · have hc : List.Forall₂ TokElsewhere (acc ++ [{ token := l.tag, line := li, pos := ci, text := l.text }])
              (acc' ++ [{ token := l.tag, line := li', pos := ci, text := l.text }]) :=
            forall2_concat h (.cons rfl .nil)
          exact BW.ite (fun _ => unsmash_code hc) (fun _ => BW.ok hc)
        · refine BW.bind (linecolno_code hla _) (fun o o' ho => ?_)
          cases o with
          | none =>
            cases o' with
            | none => exact BW.err _
            | some _ => exact ho.elim
          | some y =>
            cases o' with
            | none => exact ho.elim
            | some y' =>
              obtain ⟨a1, a2, eli, eci⟩ := y
              obtain ⟨b1, q⟩ := y'
              have ho : q = (a2, eli, eci) := ho
              subst ho
              dsimp only
              rw [hla.accum]
              refine BW.bind (BW.same _) (fun n n' hn => ?_)
              cases hn
              refine BW.bind (modifyLast_code _ ?_ h2) (fun r r' hr => lineTokensGo_code hla ls _ _ hr)
              intro t t' ht
              obtain ⟨tk, ln, ps, tx, lw, sp, pr, po⟩ := t
              obtain ⟨tk', ln', ps', tx', lw', sp', pr', po'⟩ := t'
              simp only [TokElsewhere, Tok.mk.injEq] at ht
              obtain ⟨rfl, _, rfl, rfl, rfl, rfl, rfl, rfl⟩ := ht
              rfl

theorem initStmtsGo_code : ∀ {ts ts' : List Tok}, List.Forall₂ TokElsewhere ts ts' → ∀ (i : Nat) (b : Option Nat),
    initStmtsGo i b ts' = initStmtsGo i b ts
  | _, _, .nil, i, b => rfl
  | _, _, .cons (a := t) (b := t') h hs, i, b => by
    have e : t'.isSemi = t.isSemi := by
      unfold Tok.isSemi
      rw [tokElsewhere_token h]
    rw [initStmtsGo, initStmtsGo, e, initStmtsGo_code hs, initStmtsGo_code hs]

/-! ### Statements of a line -/

/-- The statements of a line. -/
def lineViews (l : LLine) : List LStmt :=
  l.stmts.zipIdx.map (fun r => ⟨if r.2 = 0 then l.label else 0, Strm.mk' l.frags r.1.1 r.1.2⟩)

theorem statementsIn_eq (lines : List LLine) : statementsIn lines = lines.flatMap lineViews := by
  unfold statementsIn stmtsOf
  rw [List.map_flatMap]
  have key : ∀ (ls : List LLine) (k : Nat), (∀ j l, ls[j]? = some l → lines[k + j]? = some l) →
      (ls.zipIdx k).flatMap (fun li => (li.1.stmts.zipIdx.map (fun rj =>
        ({ line := some li.2, range := some rj.1
           label := if rj.2 = 0 then li.1.label else 0
           compound := if li.1.stmts.length = 1 then 0 else rj.2 + 1
           pre := if rj.2 = 0 then prefixOf lines li.2 else [] } : LLStmt))).map (stmtView lines)) = ls.flatMap lineViews := by
    intro ls
    induction ls with
    | nil => intro k _; rfl
    | cons l ls ih =>
      intro k hk
      rw [List.zipIdx_cons, List.flatMap_cons, List.flatMap_cons, ih (k + 1) (fun j x hx => by
        have := hk (j + 1) x (by simpa using hx)
        rwa [show k + (j + 1) = k + 1 + j by omega] at this)]
      congr 1
      have hl : lines[k]? = some l := by
        have := hk 0 l rfl
        simpa using this
      unfold lineViews
      rw [List.map_map]
      refine List.map_congr_left (fun r _ => ?_)
      simp only [Function.comp_apply, stmtView, hl]
  exact key lines 0 (fun j l h => by simpa using h)

/-- Lines with the same statements but for line numbers, and the same state of the scanner. -/
def SameViews (x y : LLine × Flex.State) : Prop := List.Forall₂ StmtElsewhere (lineViews x.1) (lineViews y.1) ∧ y.2 = x.2

theorem views_same {l l' : LLine} (h1 : l'.stmts = l.stmts) (h2 : l'.label = l.label) (h3 : List.Forall₂ TokElsewhere l.frags l'.frags) :
    List.Forall₂ StmtElsewhere (lineViews l) (lineViews l') := by
  unfold lineViews
  rw [h1, h2]
  generalize l.stmts.zipIdx = z
  induction z with
  | nil => exact .nil
  | cons r rs ih => exact .cons ⟨rfl, h3, rfl, rfl, rfl⟩ ih

theorem tokenize_code (st : Flex.State) {l l' : LLine} (hl : l'.label = l.label) {la la' : LineAccum} (h : SameAcc la la') :
    BothWays SameViews (LLine.tokenize st l la) (LLine.tokenize st l' la') := by
  unfold LLine.tokenize
  rw [h.accum]
  refine BW.bind (BW.same _) (fun r r' hr => ?_)
  cases hr
  refine BW.bind (lineTokensGo_code h r.1 0 0 .nil) (fun fr fr' hf => BW.ok ⟨views_same ?_ hl hf, rfl⟩)
  unfold LLine.initStmts
  dsimp only
  rw [initStmtsGo_code hf]

/-- Lines of a statement, with or without the comments among them. -/
theorem ofLines_code (st : Flex.State) {f f' : FileLine} {fs fs' : List FileLine} (hf : CodeLine f f')
    (hfs : List.Forall₂ CodeLine ((f :: fs).filter (fun f => !f.isTrivial)) ((f' :: fs').filter (fun f => !f.isTrivial))) :
    BothWays SameViews (LLine.ofLines st (f :: fs)) (LLine.ofLines st (f' :: fs')) := by
  unfold LLine.ofLines LLine.initFromLayout
  dsimp only
  have hla : SameAcc (accumAll (((f :: fs).filter (fun f => !f.isTrivial)).map pieceOf))
      (accumAll (((f' :: fs').filter (fun f => !f.isTrivial)).map pieceOf)) := accumFold_code hfs ⟨rfl, rfl, rfl, rfl⟩
  have hl : f'.left_txt = f.left_txt := by rw [hf.rest]
  rw [codeLine_bits hf, hl]
  refine BW.ite (fun _ => BW.ite (fun _ => BW.err _) (fun _ => ?_)) (fun _ =>
    tokenize_code st (l := { layout := f :: fs, label := 0 }) (l' := { layout := f' :: fs', label := 0 }) rfl hla)
  refine BW.bind (BW.same _) (fun v v' hv => ?_)
  cases hv
  exact tokenize_code st (l := { layout := f :: fs, label := v }) (l' := { layout := f' :: fs', label := v }) rfl hla

theorem codeLine_refl (f : FileLine) : CodeLine f f := ⟨rfl, Iff.rfl⟩

/-- A group without text has no statements and leaves the scanner alone. -/
theorem ofLines_noText (st : Flex.State) {g : List FileLine} (hne : g ≠ []) (h : ∀ f ∈ g, NoText f) :
    ∃ l, LLine.ofLines st g = .ok (l, st) ∧ lineViews l = [] := by
  have hacc : (accumAll ((g.filter (fun f => !f.isTrivial)).map pieceOf)).accum = [] := by
    rw [(accumAll_fields _).1]
    have : ∀ (b : Bool) (fs : List FileLine), (∀ f ∈ fs, NoText f) → joined b (fs.map pieceOf) = [] := by
      intro b fs
      induction fs generalizing b with
      | nil => intro _; rfl
      | cons f fs ih =>
        intro hf
        obtain ⟨⟨h1, h2, h3⟩, _⟩ := hf f (by simp)
        rw [List.map_cons, joined, ih _ (fun x hx => hf x (by simp [hx]))]
        simp [leadBlank, trailBlank, pieceOf, h1, h2, h3]
    exact this _ _ (fun f hf => h f (List.mem_filter.mp hf).1)
  cases g with
  | nil => exact absurd rfl hne
  | cons f fs =>
    have hlab := (h f (by simp)).2
    unfold LLine.ofLines LLine.initFromLayout
    dsimp only
    unfold LLine.tokenize
    rw [hacc]
    by_cases hb : f.bits.label = true
    · obtain ⟨h1, v, h2⟩ := hlab hb
      rw [if_pos hb, if_neg h1, h2]
      exact ⟨_, rfl, rfl⟩
    · rw [if_neg hb]
      exact ⟨_, rfl, rfl⟩

/-! ### All the lines -/

/-- The lines made of the lines of the statements alone. -/
def buildCode (st : Flex.State) : List (List FileLine) → Res (List LLine × Flex.State)
  | [] => .ok ([], st)
  | c :: cs => do
    let r ← LLine.ofLines st c
    let rs ← buildCode r.2 cs
    .ok (r.1 :: rs.1, rs.2)

/-- The same statements but for line numbers, and the same state of the scanner. -/
def AllViews (x y : List LLine × Flex.State) : Prop := List.Forall₂ StmtElsewhere (x.1.flatMap lineViews) (y.1.flatMap lineViews) ∧ y.2 = x.2

theorem buildLine_ofLines (st : Flex.State) (g : Group) : BothWays (fun x y => lineViews y.1 = lineViews x.1 ∧ y.2 = x.2) (LLine.ofLines st g.layout)
    (buildLine st g) := by
  unfold buildLine
  cases LLine.ofLines st g.layout with
  | error e => exact BW.err _
  | ok r => exact BW.ok ⟨rfl, rfl⟩

theorem chunks_build : ∀ {gs : List Group} {r : List (List FileLine)}, Chunks gs r → ∀ (st : Flex.State),
    BothWays AllViews (buildLines st gs) (buildCode st r)
  | _, _, .nil, st => BW.ok ⟨.nil, rfl⟩
  | _, r, .other (g := g) (gs := gs) hne hg h, st => by
    rw [buildLines]
    obtain ⟨l, h1, h2⟩ := ofLines_noText st hne hg
    have hb : ∃ l', buildLine st g = .ok (l', st) ∧ lineViews l' = [] := by
      have := buildLine_ofLines st g
      rw [h1] at this
      revert this
      cases buildLine st g with
      | error e => intro h; exact h.elim
      | ok y =>
        obtain ⟨a, b⟩ := y
        intro (h : lineViews a = lineViews l ∧ b = st)
        exact ⟨a, by rw [h.2], by rw [h.1, h2]⟩
    obtain ⟨l', e1, e2⟩ := hb
    rw [e1, Res.ok_bind]
    dsimp only
    have ih := chunks_build h st
    revert ih
    cases buildLines st gs with
    | error e =>
      intro ih
      exact ih
    | ok x =>
      cases buildCode st r with
      | error e => intro ih; exact ih.elim
      | ok y =>
        intro ih
        refine BW.ok ⟨?_, ih.2⟩
        rw [List.flatMap_cons, e2]
        exact ih.1
  | _, _, .code (g := g) (gs := gs) (r := r) (f := f) (fs := fs) hl hf h, st => by
    rw [buildLines, buildCode]
    refine BW.bind (Q := SameViews) ?_ (fun x y hxy => ?_)
    · have hnt : f.isTrivial = false := by
        unfold FileLine.isFortran at hf
        simp at hf
        simp [hf]
      have hb := buildLine_ofLines st g
      have hc : BothWays SameViews (LLine.ofLines st g.layout) (LLine.ofLines st (g.layout.filter (fun f => !f.isTrivial))) := by
        rw [hl, List.filter_cons, if_pos (by simp [hnt])]
        refine ofLines_code st (codeLine_refl f) ?_
        rw [List.filter_cons, if_pos (by simp [hnt]), List.filter_cons, if_pos (by simp [hnt]), List.filter_filter]
        simp only [Bool.and_self]
        exact List.forall₂_same.mpr (fun x _ => codeLine_refl x)
      revert hb hc
      cases LLine.ofLines st g.layout with
      | error e =>
        cases buildLine st g with
        | error e' =>
          intro (h1 : e' = e)
          subst h1
          exact id
        | ok _ => intro h1; exact h1.elim
      | ok a =>
        cases buildLine st g with
        | error e' => intro h1; exact h1.elim
        | ok b =>
          intro (h1 : lineViews b.1 = lineViews a.1 ∧ b.2 = a.2)
          cases LLine.ofLines st (g.layout.filter (fun f => !f.isTrivial)) with
          | error e => intro h2; exact h2.elim
          | ok c =>
            intro (h2 : SameViews a c)
            refine BW.ok ⟨?_, ?_⟩
            · rw [h1.1]; exact h2.1
            · rw [h1.2]; exact h2.2
    · rw [hxy.2]
      refine BW.bind (chunks_build h x.2) (fun q q' hq => BW.ok ⟨?_, hq.2⟩)
      rw [List.flatMap_cons, List.flatMap_cons]
      exact forall2_concat hxy.1 hq.1

theorem code_build : ∀ {r r' : List (List FileLine)}, List.Forall₂ (List.Forall₂ CodeLine) r r' → ∀ (st : Flex.State),
    BothWays AllViews (buildCode st r) (buildCode st r')
  | _, _, .nil, st => BW.ok ⟨.nil, rfl⟩
  | _, _, .cons (a := c) (b := c') hc hr, st => by
    rw [buildCode, buildCode]
    refine BW.bind (Q := SameViews) ?_ (fun x y hxy => ?_)
    · have hf := filter_code hc
      cases hc with
      | nil => exact BW.err _
      | cons h hs => exact ofLines_code st h hf
    · rw [hxy.2]
      refine BW.bind (code_build hr x.2) (fun q q' hq => BW.ok ⟨?_, hq.2⟩)
      rw [List.flatMap_cons, List.flatMap_cons]
      exact forall2_concat hxy.1 hq.1

theorem stmtElsewhere_refl (s : LStmt) : StmtElsewhere s s := ⟨rfl, List.forall₂_same.mpr (fun _ _ => rfl), rfl, rfl, rfl⟩

theorem tokElsewhere_trans {a b c : Tok} (h1 : TokElsewhere a b) (h2 : TokElsewhere b c) : TokElsewhere a c := by
  unfold TokElsewhere at *
  rw [h1] at h2
  exact h2

theorem tokElsewhere_symm {a b : Tok} (h : TokElsewhere a b) : TokElsewhere b a := by
  obtain ⟨tk, ln, ps, tx, lw, sp, pr, po⟩ := a
  obtain ⟨tk', ln', ps', tx', lw', sp', pr', po'⟩ := b
  simp only [TokElsewhere, Tok.mk.injEq] at h
  obtain ⟨rfl, _, rfl, rfl, rfl, rfl, rfl, rfl⟩ := h
  rfl

theorem forall2_flip {α : Type} {Q : α → α → Prop} (hq : ∀ a b, Q a b → Q b a) : ∀ {l l' : List α}, List.Forall₂ Q l l' → List.Forall₂ Q l' l
  | _, _, .nil => .nil
  | _, _, .cons h hs => .cons (hq _ _ h) (forall2_flip hq hs)

theorem forall2_comp {α : Type} {Q : α → α → Prop} (hq : ∀ a b c, Q a b → Q b c → Q a c) : ∀ {l m n : List α}, List.Forall₂ Q l m →
    List.Forall₂ Q m n → List.Forall₂ Q l n
  | _, _, _, .nil, .nil => .nil
  | _, _, _, .cons h hs, .cons h' hs' => .cons (hq _ _ _ h h') (forall2_comp hq hs hs')

theorem stmtElsewhere_symm (a b : LStmt) (h : StmtElsewhere a b) : StmtElsewhere b a :=
  ⟨h.label.symm, forall2_flip (fun _ _ => tokElsewhere_symm) h.toks, h.lo.symm, h.hi.symm, h.pos.symm⟩

theorem stmtElsewhere_trans (a b c : LStmt) (h : StmtElsewhere a b) (h' : StmtElsewhere b c) : StmtElsewhere a c :=
  ⟨h'.label.trans h.label, forall2_comp (Q := TokElsewhere) (fun _ _ _ h1 h2 => tokElsewhere_trans h1 h2) h.toks h'.toks, h'.lo.trans h.lo, h'.hi.trans h.hi, h'.pos.trans h.pos⟩

theorem allViews_symm {x y : List LLine × Flex.State} (h : AllViews x y) : AllViews y x := ⟨forall2_flip stmtElsewhere_symm h.1, h.2.symm⟩

theorem allViews_trans {x y z : List LLine × Flex.State} (h : AllViews x y) (h' : AllViews y z) : AllViews x z :=
  ⟨forall2_comp stmtElsewhere_trans h.1 h'.1, h'.2.trans h.2⟩

theorem bothWays_symm {ε α β : Type} {Q : α → β → Prop} {S : β → α → Prop} (hq : ∀ a b, Q a b → S b a) {a : Except ε α} {b : Except ε β}
    (h : BothWays Q a b) : BothWays S b a := by
  cases a with
  | error e =>
    cases b with
    | error e' => exact (show e' = e from h).symm
    | ok _ => exact h.elim
  | ok x =>
    cases b with
    | error e' => exact h.elim
    | ok y => exact hq x y h

theorem bothWays_trans {ε α β γ : Type} {Q : α → β → Prop} {S : β → γ → Prop} {T : α → γ → Prop} (hq : ∀ a b c, Q a b → S b c → T a c)
    {a : Except ε α} {b : Except ε β} {c : Except ε γ} (h : BothWays Q a b) (h' : BothWays S b c) : BothWays T a c := by
  cases a with
  | error e =>
    cases b with
    | error e' =>
      cases c with
      | error e'' => exact (show e'' = e' from h').trans (show e' = e from h)
      | ok _ => exact h'.elim
    | ok _ => exact h.elim
  | ok x =>
    cases b with
    | error e' => exact h.elim
    | ok y =>
      cases c with
      | error e'' => exact h'.elim
      | ok z => exact hq x y z h h'

/-- Two files of lines: their groups have the same statements if their lines, read one at a time, do. -/
theorem groups_same {l l' : List FileLine} (hk : ∀ f ∈ l, FreeKind f) (hk' : ∀ f ∈ l', FreeKind f)
    (h : List.Forall₂ (List.Forall₂ CodeLine) (runLines .idle l) (runLines .idle l')) :
    ∃ gs gs', groupLoop nextFree l.length l = .ok gs ∧ groupLoop nextFree l'.length l' = .ok gs' ∧
      ∀ st, BothWays SameStatements (buildLines st gs) (buildLines st gs') := by
  obtain ⟨gs, h1, h2⟩ := group_run l.length l (le_refl _) hk
  obtain ⟨gs', h1', h2'⟩ := group_run l'.length l' (le_refl _) hk'
  refine ⟨gs, gs', h1, h1', fun st => ?_⟩
  have e1 := chunks_build h2 st
  have e2 := code_build h st
  have e3 : BothWays AllViews (buildCode st (runLines .idle l')) (buildLines st gs') :=
    bothWays_symm (fun _ _ h => allViews_symm h) (chunks_build h2' st)
  have e4 : BothWays AllViews (buildLines st gs) (buildCode st (runLines .idle l')) :=
    bothWays_trans (Q := AllViews) (S := AllViews) (T := AllViews) (fun _ _ _ h1 h2 => allViews_trans h1 h2) e1 e2
  have e5 : BothWays AllViews (buildLines st gs) (buildLines st gs') := bothWays_trans (Q := AllViews) (S := AllViews) (T := AllViews) (fun _ _ _ h1 h2 => allViews_trans h1 h2) e4 e3
  refine BW.mono e5 (fun x y hxy => ?_)
  exact ⟨by rw [statementsIn_eq, statementsIn_eq]; exact hxy.1, hxy.2⟩

end FLPR
