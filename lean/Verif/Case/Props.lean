import Verif.Case.FileSpec
import Verif.Case.Tokens
import Verif.Indent.RereadTree
/-!
# Properties: the case of letters does not matter (C76)
-/

namespace FLPR
open Spec SP PP PF

/-! ### Reading -/

/-- C76: two texts that differ in the case of letters only are read alike, in free and in fixed format: both fail in the same way, or both are
read, line for line and token for token the same but for the case of letters, and leave the scanner in the same state.  Lines that have the mark
of a directive must be the same. -/
theorem C76_read (st : Flex.State) (raws raws' : List Str) (h : List.Forall₂ Respelled raws raws') (name : Str) (lastCol : Int) (given : FileType) :
    BothWays (fun r r' => CaseFile r.1 r'.1 ∧ r'.2 = r.2) (PFile.make st (some raws) name lastCol given)
      (PFile.make st (some raws') name lastCol given) := by
  unfold PFile.make readAndScan
  dsimp only
  refine BW.bind (Q := fun r r' => CaseFile (PFile.load {} r.1) (PFile.load {} r'.1) ∧ r'.2 = r.2) ?_ (fun r r' hr => BW.ok hr)
  refine BW.bind (BW.same _) (fun type type' ht => ?_)
  cases ht
  have hscan : BothWays CaseGroups (scanAs type lastCol raws) (scanAs type lastCol raws') := by
    unfold scanAs
    cases type with
    | fixedfmt => exact scanFixed_case h lastCol
    | freefmt => exact scanFree_case h
    | unknown => exact BW.ok (show CaseGroups none none from trivial)
  refine BW.bind hscan (fun o o' ho => ?_)
  cases o with
  | none =>
    cases o' with
    | none => exact BW.ok ⟨⟨rfl, .nil⟩, rfl⟩
    | some _ => exact ho.elim
  | some gs =>
    cases o' with
    | none => exact ho.elim
    | some gs' =>
      have ho : List.Forall₂ CaseGroup gs gs' := ho
      exact BW.bind (buildLines_case ho st) (fun r r' hr => BW.ok ⟨⟨rfl, hr.1⟩, hr.2⟩)

/-! ### Statements and trees -/

theorem caseLLine_like {l l' : LLine} (h : CaseLLine l l') : LikeLine l l' := by
  rw [h.rest]
  exact ⟨rfl, rfl, rfl, rfl⟩

theorem caseTok_equiv {t t' : Tok} (h : CaseTok t t') : EquivTok t t' := ⟨caseTok_token h, h.text, (caseTok_lowerText h).1⟩

theorem caseLLine_parses {l l' : LLine} (h : CaseLLine l l') : ParsesLike l l' := h.frags.imp (fun _ _ => caseTok_equiv)

/-- C76: lines that agree but for the case of letters have the same statements. -/
theorem C76_statements (ls ls' : List LLine) (h : List.Forall₂ CaseLLine ls ls') : makeStmts ls' = makeStmts ls :=
  makeStmts_like (h.imp (fun _ _ => caseLLine_like))

/-- Parse results with the same tree and the same verdict. -/
def SameParse (o o' : POut) : Prop := o'.tree = o.tree ∧ o'.ok = o.ok

theorem parse_case {x : Exts} (hx : Indifferent x) {parse : PState → Res POut} (hp : IsParser x parse) {ls ls' : List LLine}
    (h : List.Forall₂ CaseLLine ls ls') (ss : List LLStmt) : BothWays SameParse (parse (stateOf ls ss)) (parse (stateOf ls' ss)) := by
  have h1 := hp _ (stateOf_full ls ss)
  obtain ⟨res, h2, h3⟩ := C75_program x hx .program _ _ (stateOf_eqv (h.imp (fun _ _ => caseLLine_parses)) ss) _ h1
  rw [PReturns.unique (hp _ (stateOf_full ls' ss)) h2]
  exact BW.mono h3 (fun o o' ho => ⟨ho.tree, ho.ok⟩)

theorem prefetchStmts_case {pf pf' : PFile} (h : CaseFile pf pf') : BothWays CaseFile pf.prefetchStmts pf'.prefetchStmts := by
  unfold PFile.prefetchStmts
  have e1 : pf'.stmtsOk = pf.stmtsOk := by rw [h.rest]
  have e2 : pf'.bad = pf.bad := by rw [h.rest]
  rw [e1]
  refine BW.ite (fun _ => BW.ok h) (fun _ => ?_)
  unfold PFile.buildStmts
  rw [e2]
  refine BW.ite (fun _ => BW.ok h) (fun _ => ?_)
  rw [C76_statements _ _ h.lines]
  refine BW.bind (BW.same _) (fun o o' ho => ?_)
  cases ho
  cases o with
  | none => exact BW.err _
  | some ss =>
    refine BW.ok ⟨?_, h.lines⟩
    dsimp only
    rw [h.rest]

theorem prefetchTree_case {x : Exts} (hx : Indifferent x) {parse : PState → Res POut} (hp : IsParser x parse) {pf pf' : PFile}
    (h : CaseFile pf pf') : BothWays CaseFile (pf.prefetchTree parse) (pf'.prefetchTree parse) := by
  unfold PFile.prefetchTree
  have e1 : pf'.treeOk = pf.treeOk := by rw [h.rest]
  have e2 : pf'.bad = pf.bad := by rw [h.rest]
  rw [e1]
  refine BW.ite (fun _ => BW.ok h) (fun _ => ?_)
  unfold PFile.buildTree
  rw [e2]
  refine BW.ite (fun _ => BW.ok h) (fun _ => ?_)
  refine BW.bind (Q := fun r r' => CaseFile r.2 r'.2 ∧ r'.1 = r.1) ?_ ?_
  · unfold PFile.statements
    refine BW.bind (prefetchStmts_case h) (fun q q' hq => BW.ok ⟨hq, ?_⟩)
    dsimp only
    rw [hq.rest]
  · rintro ⟨ss, q⟩ ⟨ss', q'⟩ ⟨hq, hs⟩
    dsimp only at hq hs ⊢
    subst hs
    refine BW.ite (fun _ => BW.ok ⟨?_, hq.lines⟩) (fun _ => ?_)
    · dsimp only
      rw [hq.rest]
    · refine BW.bind (parse_case hx hp hq.lines ss') (fun o o' ho => ?_)
      rw [ho.1, ho.2]
      cases o.tree with
      | none => exact BW.err _
      | some t =>
        refine BW.ok ⟨?_, hq.lines⟩
        dsimp only
        rw [hq.rest]

/-- C76: whatever a user asks of two such files, the answers are the same: whether it was read, the statements, the parse tree and the node of
a statement. -/
theorem C76_asks (x : Exts) (hx : Indifferent x) (parse : PState → Res POut) (hp : IsParser x parse) (pf pf' : PFile) (h : CaseFile pf pf')
    (qs : List Op) : pf'.askAll parse qs = pf.askAll parse qs := by
  suffices hs : ∀ (qs : List Op) (pf pf' : PFile), CaseFile pf pf' → BothWays (· = ·) (pf.askAll parse qs) (pf'.askAll parse qs) by
    have := hs qs pf pf' h
    revert this
    cases pf.askAll parse qs with
    | error e =>
      cases pf'.askAll parse qs with
      | error e' => intro (h : e' = e); rw [h]
      | ok _ => intro h; exact h.elim
    | ok l =>
      cases pf'.askAll parse qs with
      | error e' => intro h; exact h.elim
      | ok l' => intro (h : l = l'); rw [h]
  intro qs
  induction qs with
  | nil => intro pf pf' _; exact BW.ok rfl
  | cons q qs ih =>
    intro pf pf' h
    rw [PFile.askAll, PFile.askAll]
    refine BW.bind (Q := fun r r' => r'.1 = r.1 ∧ CaseFile r.2 r'.2) ?_ (fun r r' hr => ?_)
    · cases q with
      | good =>
        refine BW.ok ⟨?_, h⟩
        unfold PFile.good
        rw [h.rest]
      | preStmts =>
        refine BW.bind (prefetchStmts_case h) (fun p p' hp => BW.ok ⟨?_, hp⟩)
        dsimp only
        rw [hp.rest]
      | stmts =>
        unfold PFile.ask PFile.statements
        dsimp only
        refine BW.bind (Q := fun r r' => r'.1 = r.1 ∧ CaseFile r.2 r'.2) (BW.bind (prefetchStmts_case h) (fun p p' hp => BW.ok ⟨?_, hp⟩))
          (fun r r' hr => BW.ok ⟨?_, hr.2⟩)
        · dsimp only
          rw [hp.rest]
        · dsimp only
          rw [hr.1]
      | preTree =>
        refine BW.bind (prefetchTree_case hx hp h) (fun p p' hp => BW.ok ⟨?_, hp⟩)
        dsimp only
        rw [hp.rest]
      | tree =>
        unfold PFile.ask PFile.parseTree
        dsimp only
        refine BW.bind (Q := fun r r' => r'.1 = r.1 ∧ CaseFile r.2 r'.2) (BW.bind (prefetchTree_case hx hp h) (fun p p' hp => BW.ok ⟨?_, hp⟩))
          (fun r r' hr => BW.ok ⟨?_, hr.2⟩)
        · dsimp only
          rw [hp.rest]
        · dsimp only
          rw [hr.1]
      | node i =>
        refine BW.ok ⟨?_, h⟩
        unfold PFile.nodeCursor
        rw [h.rest]
    · exact BW.bind (ih _ _ hr.2) (fun l l' hl => by cases hl; exact BW.ok (by rw [hr.1]))

/-- C76: two files that differ in the case of letters only have the same parse tree. -/
theorem C76_tree (x : Exts) (hx : Indifferent x) (st : Flex.State) (raws raws' : List Str) (h : List.Forall₂ Respelled raws raws') (name : Str)
    (lastCol : Int) (given : FileType) (pf : PFile) (st' : Flex.State) (hm : PFile.make st (some raws) name lastCol given = .ok (pf, st'))
    (hg : pf.good = true) (t : Option PNode) (ht : TreeIs x pf.lines t) :
    ∃ pf', PFile.make st (some raws') name lastCol given = .ok (pf', st') ∧ pf'.good = true ∧ CaseFile pf pf' ∧ TreeIs x pf'.lines t := by
  have h1 := C76_read st raws raws' h name lastCol given
  rw [hm] at h1
  cases hm' : PFile.make st (some raws') name lastCol given with
  | error e => rw [hm'] at h1; exact h1.elim
  | ok r =>
    rw [hm'] at h1
    obtain ⟨pf', st''⟩ := r
    have h1 : CaseFile pf pf' ∧ st'' = st' := h1
    obtain ⟨hc, rfl⟩ := h1
    have hg' : pf'.good = true := by
      unfold PFile.good at hg ⊢
      rw [hc.rest]
      exact hg
    refine ⟨pf', rfl, hg', hc, C75_file x hx _ _ (hc.lines.imp (fun _ _ => caseLLine_parses)) ?_ t ht⟩
    rcases C67_make st _ _ name lastCol given pf hm with ⟨_, _, _, _, _, _, h3, h4, _⟩ | ⟨e, _⟩
    · rcases C67_make st _ _ name lastCol given pf' hm' with ⟨_, _, _, _, _, _, k3, k4, _⟩ | ⟨e, _⟩
      · have := C76_statements _ _ hc.lines
        rw [scanAs_stmts h3 h4, scanAs_stmts k3 k4] at this
        injection this with this
        injection this
      · rw [hg'] at e; cases e
    · rw [hg] at e; cases e

/-! ### Examples and the exception -/

/-- A program in two spellings. -/
def xSpelled : List Str × List Str :=
  (["program p", "10 if (a .eq. 'x') then", "y = 1.0e3_dp ! note", "endif", "end"].map String.toList,
   ["PROGRAM P", "10 If (A .EQ. 'X') Then", "Y = 1.0E3_DP ! Note", "ENDIF", "eND"].map String.toList)

theorem respelled_of {a b : Str} (h : (b.map lowChar == a.map lowChar) = true) (hn : '#' ∉ a.map lowChar) : Respelled a b :=
  .inr ⟨beq_iff_eq.mp h, fun hi => hn (hi.subset (by decide))⟩

/-- The spellings are such a pair of files, and the first is read. -/
example : List.Forall₂ Respelled xSpelled.1 xSpelled.2 ∧ readGood ["program p", "10 if (a .eq. 'x') then", "y = 1.0e3_dp ! note", "endif", "end"] = true :=
  ⟨.cons (respelled_of (by decide) (by decide)) (.cons (respelled_of (by decide) (by decide))
    (.cons (respelled_of (by decide) (by decide)) (.cons (respelled_of (by decide) (by decide))
      (.cons (respelled_of (by decide) (by decide)) .nil)))), by decide +kernel⟩

/-- It has a tree. -/
example : ∃ t, TreeIs noExts (linesOfText ["program p", "10 if (a .eq. 'x') then", "y = 1.0e3_dp ! note", "endif", "end"]) (some t) := by
  generalize hl : linesOfText ["program p", "10 if (a .eq. 'x') then", "y = 1.0e3_dp ! note", "endif", "end"] = ls
  obtain ⟨o, h1, h2⟩ := returns_of (x := noExts) (r := .program) (s := stateOf ls (stmtsOf ls))
    (q := fun o => o.ok && o.tree.any (fun t => leavesOf t == [0, 1, 2, 3, 4])) 40 (by rw [← hl]; decide +kernel)
  simp only [Bool.and_eq_true, beq_iff_eq, Option.any_eq_true] at h2
  obtain ⟨h2, t, h3, h4⟩ := h2
  refine ⟨t, .inr ⟨?_, o, h1, h2, h3⟩⟩
  have : (stmtsOf ls).length = 5 := by rw [← hl]; decide +kernel
  intro e
  rw [e] at this
  cases this

/-- The categories of the groups of a text. -/
def catsOf (raws : List Str) : List LineCat := (groupsOf raws).map (·.cat)

/-- C76 fails for directives: their mark must be in lower case.  In upper case it is a comment. -/
theorem C76_violation_directive : SameLetters "!#flpr x".toList "!#FLPR x".toList ∧
    catsOf ["!#flpr x".toList] = [.flpr_pp] ∧ catsOf ["!#FLPR x".toList] = [.unknown] := by
  refine ⟨?_, by decide +kernel, by decide +kernel⟩
  show List.map _ _ = List.map _ _
  decide

end FLPR
