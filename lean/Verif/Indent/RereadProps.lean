import Verif.Indent.RereadTokens
import Verif.ParsedFile.Props
/-!
# Indenting a free-format file, writing it and reading it again (C74)
-/

namespace FLPR
open Spec PP

/-! ### The statements depend on little -/

/-- The lines agree in what the statement source asks for. -/
def LikeLine (l l' : LLine) : Prop := l'.stmts = l.stmts ∧ l'.suppress = l.suppress ∧ l'.label = l.label ∧ l'.cat = l.cat

theorem skipPrefix_like : ∀ {ls ls' : List LLine}, List.Forall₂ LikeLine ls ls' → ∀ i, skipPrefix i ls' = skipPrefix i ls
  | _, _, .nil, _ => rfl
  | l :: ls, l' :: ls', .cons h hs, i => by
    unfold skipPrefix
    rw [h.1, h.2.1, skipPrefix_like hs]

theorem forall2_drop {α β : Type} {R : α → β → Prop} : ∀ {l : List α} {l' : List β}, List.Forall₂ R l l' → ∀ n, List.Forall₂ R (l.drop n) (l'.drop n)
  | _, _, .nil, n => by simp
  | _, _, .cons h hs, 0 => .cons h hs
  | _, _, .cons _ hs, n + 1 => by simpa using forall2_drop hs n

theorem refill_like {ls ls' : List LLine} (h : List.Forall₂ LikeLine ls ls') (s : StmtSrc) : s.refill ls' = s.refill ls := by
  unfold StmtSrc.refill
  rw [skipPrefix_like (forall2_drop h s.it)]
  dsimp only
  generalize (skipPrefix s.it (ls.drop s.it)).2 = k
  cases hk : ls[k]? with
  | none =>
    rw [List.getElem?_eq_none_iff] at hk
    rw [List.getElem?_eq_none (by rw [← h.length_eq]; exact hk)]
  | some l =>
    obtain ⟨l', h1, h2⟩ := forall2_getElem? h hk
    rw [h1]
    dsimp only
    rw [h2.1, h2.2.1, h2.2.2.1, h2.2.2.2]

theorem moreAvailGo_like {ls ls' : List LLine} (h : List.Forall₂ LikeLine ls ls') : ∀ (n : Nat) (s : StmtSrc),
    s.moreAvailGo ls' n = s.moreAvailGo ls n
  | 0, _ => rfl
  | n + 1, s => by
    unfold StmtSrc.moreAvailGo
    rw [h.length_eq, refill_like h]
    simp only [moreAvailGo_like h n]

theorem advance_like {ls ls' : List LLine} (h : List.Forall₂ LikeLine ls ls') (s : StmtSrc) : s.advance ls' = s.advance ls := by
  unfold StmtSrc.advance StmtSrc.moreAvail
  simp only [moreAvailGo_like h, h.length_eq]

theorem makeStmtsGo_like {ls ls' : List LLine} (h : List.Forall₂ LikeLine ls ls') : ∀ (n : Nat) (s : StmtSrc),
    makeStmtsGo ls' n s = makeStmtsGo ls n s
  | 0, _ => rfl
  | n + 1, s => by
    unfold makeStmtsGo
    rw [advance_like h]
    simp only [makeStmtsGo_like h n]

theorem makeStmts_like {ls ls' : List LLine} (h : List.Forall₂ LikeLine ls ls') : makeStmts ls' = makeStmts ls := by
  unfold makeStmts
  have : stmtFuel ls' = stmtFuel ls := by
    unfold stmtFuel
    congr 2
    induction h with
    | nil => rfl
    | cons hx _ ih => rw [List.map_cons, List.map_cons, ih, hx.1]
  rw [this, makeStmtsGo_like h]

theorem initFromLayout_suppress {st st' : Flex.State} {l l' : LLine} (h : LLine.initFromLayout st l = .ok (l', st')) :
    l'.suppress = l.suppress := by
  have tok : ∀ (l0 : LLine) (la : LineAccum), LLine.tokenize st l0 la = .ok (l', st') → l'.suppress = l0.suppress := by
    intro l0 la h
    unfold LLine.tokenize at h
    rbind h with r hr
    rbind h with fr hfr
    simp only [Except.ok.injEq, Prod.mk.injEq] at h
    rw [← h.1]
    rfl
  unfold LLine.initFromLayout at h
  dsimp only at h
  split at h
  · simp at h
  · split at h
    · split at h
      · simp at h
      · rbind h with v hv
        exact tok { l with label := v } _ h
    · exact tok { l with label := 0 } _ h

theorem buildLines_suppress : ∀ {gs : List Group} {st st' : Flex.State} {lines : List LLine},
    buildLines st gs = .ok (lines, st') → ∀ l ∈ lines, l.suppress = false
  | [], _, _, _, h => by simp [buildLines] at h; rw [h.1]; simp
  | g :: gs, st, st', lines, h => by
    unfold buildLines at h
    rbind h with r hr
    rbind h with rs hrs
    simp only [Except.ok.injEq, Prod.mk.injEq] at h
    rw [← h.1]
    intro l hl
    rcases List.mem_cons.mp hl with rfl | hl
    · unfold buildLine at hr
      rbind hr with q hq
      simp only [Except.ok.injEq] at hr
      rw [← hr]
      show q.1.suppress = false
      exact initFromLayout_suppress (l := { layout := g.layout }) (st := st) (st' := q.2) hq
    · exact buildLines_suppress hrs l hl

theorem forall2_of_index {α β : Type} {R : α → β → Prop} : ∀ {l : List α} {l' : List β}, l'.length = l.length →
    (∀ (j : Nat) (a : α), l[j]? = some a → ∃ b, l'[j]? = some b ∧ R a b) → List.Forall₂ R l l'
  | [], [], _, _ => .nil
  | [], _ :: _, h, _ => by simp at h
  | _ :: _, [], h, _ => by simp at h
  | a :: l, b :: l', h, hj => by
    refine .cons ?_ (forall2_of_index (by simpa using h) (fun j x hx => ?_))
    · obtain ⟨c, h1, h2⟩ := hj 0 a rfl
      simp at h1
      rw [h1]
      exact h2
    · obtain ⟨c, h1, h2⟩ := hj (j + 1) x (by simpa using hx)
      exact ⟨c, by simpa using h1, h2⟩

/-! ### The theorem -/

/-- C74: a free-format file that is read, indented, written and read again has the same logical lines, with the physical lines
that the indentation made and with tokens that differ in their columns only, and so the same statements; for files in which every
physical line is steady, and a table with a positive offset for continuation lines.  Missing: the other lines
(`C74_violation_column`, `C74_violation_directive`). -/
theorem C74_reread_partial (raws : List Str) (ha : ∀ raw ∈ raws, AsciiStr raw) (gs : List Group) (hscan : scanFree raws = .ok (some gs))
    (st st' : Flex.State) (lines : List LLine) (hbuild : buildLines st gs = .ok (lines, st'))
    (hs : ∀ l ∈ lines, SteadyLayout l.layout) (tab : Ind.Table) (hc : 0 < tab.continued) (stmts : List LLStmt) (t : PNode)
    (r : List LLine × Bool) (hi : Ind.indent tab stmts (some t) lines = .ok r) :
    ∃ gs' lines', scanFree (fileText r.1) = .ok (some gs') ∧ buildLines st gs' = .ok (lines', st') ∧
      List.Forall₂ AlikeLine r.1 lines' ∧ makeStmts lines' = makeStmts lines := by
  obtain ⟨hlen, hmv, hj⟩ := Ind.C34_indent tab stmts t lines r hi
  have hsup := buildLines_suppress hbuild
  have hlay := buildLines_layout hbuild
  have hall : List.Forall₂ (fun l l' => ShiftAll l.layout l'.layout ∧ l' = { l with layout := l'.layout }) lines r.1 := by
    refine forall2_of_index hlen (fun j l hl => ?_)
    obtain ⟨l', h1, h2⟩ := hj j l hl
    refine ⟨l', h1, indentedAll_shift hc h2 (fun n hn => ?_) (hsup l (List.mem_of_getElem? hl))⟩
    unfold movesFor at hn
    obtain ⟨m, hm, rfl⟩ := List.mem_map.mp hn
    exact hmv m (List.mem_filter.mp hm).1
  -- the groups and the new layouts
  have hL : List.Forall₂ (fun g L => ShiftAll g.layout L ∧ SteadyLayout g.layout) gs (r.1.map (·.layout)) := by
    have h1 : ∀ {ls ls' : List LLine} {gs : List Group}, List.Forall₂ (fun l l' => ShiftAll l.layout l'.layout ∧ l' = { l with layout := l'.layout }) ls ls' →
        (∀ l ∈ ls, SteadyLayout l.layout) → ls.map (·.layout) = gs.map (·.layout) →
        List.Forall₂ (fun (g : Group) L => ShiftAll g.layout L ∧ SteadyLayout g.layout) gs (ls'.map (·.layout)) := by
      intro ls ls' gs h
      induction h generalizing gs with
      | nil =>
        intro _ he
        cases gs with
        | nil => exact .nil
        | cons g gs => simp at he
      | @cons l l' ls ls' hx _ ih =>
        intro hst he
        cases gs with
        | nil => simp at he
        | cons g gs =>
          simp only [List.map_cons, List.cons.injEq] at he
          refine .cons ⟨by rw [← he.1]; exact hx.1, by rw [← he.1]; exact hst l (by simp)⟩ (ih (fun x hx => hst x (by simp [hx])) he.2)
    exact h1 hall hs hlay
  -- the scan of the original
  unfold scanFree at hscan
  rbind hscan with o ho
  cases o with
  | none => cases hscan
  | some fl =>
    dsimp only at hscan
    rbind hscan with gs0 hgs0
    simp only [Except.ok.injEq, Option.some.injEq] at hscan
    subst hscan
    obtain ⟨e, hch⟩ := chain_of_all (by rfl) ho
    have hprint := (analyzeAllFree_ok (by rfl) ho).1
    have hasc : ∀ f ∈ fl, AsciiStr f.print := by
      intro f hf
      refine ha _ ?_
      rw [← hprint]
      exact List.mem_map.mpr ⟨f, hf, rfl⟩
    obtain ⟨hfine, fl', c1, c2, c3, c4⟩ := regroup fl.length hgs0 hL hasc hch
    obtain ⟨lines', b1, b2⟩ := buildLines_same hL hfine hbuild
    have htext : fileText r.1 = fl'.map FileLine.print := by
      rw [c3]
      unfold fileText
      rw [List.map_flatten, List.map_map, List.flatMap_def]
      rfl
    have hzip : List.zipWith (fun l L => ({ l with layout := L } : LLine)) lines (r.1.map (·.layout)) = r.1 := by
      clear hlen hi hj hmv hL b1 b2 c3 c4 hlay hsup hs htext hbuild
      generalize r.1 = rs at hall
      induction hall with
      | nil => rfl
      | cons hx _ ih =>
        rw [List.map_cons, List.zipWith_cons_cons, ih, ← hx.2]
    rw [hzip] at b2
    refine ⟨_, lines', ?_, b1, b2, makeStmts_like ?_⟩
    · unfold scanFree
      rw [htext, all_of_chain c1, Res.ok_bind]
      dsimp only
      rw [← c2.length_eq, c4]
      rfl
    · refine forall2_trans (R := LikeLine) (fun a b c h1 h2 => ?_) (m := r.1) ?_ ?_
      · exact ⟨h2.1.trans h1.1, h2.2.1.trans h1.2.1, h2.2.2.1.trans h1.2.2.1, h2.2.2.2.trans h1.2.2.2⟩
      · refine hall.imp (fun a b h => ?_)
        rw [h.2]
        exact ⟨rfl, rfl, rfl, rfl⟩
      · refine b2.imp (fun a b h => ?_)
        rw [h.1]
        exact ⟨rfl, rfl, rfl, rfl⟩

/-! ### Examples, and where it goes wrong -/

/-- A test for lines that are steady. -/
def steadyOk (later : Bool) (f : FileLine) : Bool :=
  (!f.isFortran || (f.main_txt.head? != some '#' && (!f.bits.label || f.main_txt != []) &&
    (!f.right_txt.contains '!' || f.right_space != []) && (!later || f.bits.continuation || f.left_space != []))) &&
  (!f.bits.comment || !"#flpr".toList.isPrefixOf ((f.left_txt.dropWhile isBlankChar).tail.dropWhile (fun c => c == ' ' || c == '\t')))

theorem dropWhile_blanks {p : Char → Bool} {P : Str} {c : Char} {t : Str} (hP : ∀ x ∈ P, p x = true) (hc : p c = false) :
    (P ++ c :: t).dropWhile p = c :: t := by
  induction P with
  | nil => simp [hc]
  | cons x P ih =>
    rw [List.cons_append, List.dropWhile_cons_of_pos (hP x (by simp))]
    exact ih (fun y hy => hP y (by simp [hy]))

theorem steady_of {later : Bool} {f : FileLine} (h : steadyOk later f = true) : SteadyLine later f := by
  unfold steadyOk at h
  simp only [Bool.and_eq_true, Bool.or_eq_true, Bool.not_eq_true'] at h
  obtain ⟨h1, h2⟩ := h
  refine ⟨fun hF => ?_, fun hF hl => ?_, fun hF hb => ?_, fun hF hl hc => ?_, fun hC P t hlt hP hm => ?_⟩
  · rcases h1 with h1 | h1
    · rw [hF] at h1; cases h1
    · simpa using h1.1.1.1
  · rcases h1 with h1 | h1
    · rw [hF] at h1; cases h1
    · have := h1.1.1.2
      rw [hl] at this
      simpa using this
  · rcases h1 with h1 | h1
    · rw [hF] at h1; cases h1
    · have := h1.1.2
      rcases this with h | h
      · have : f.right_txt.contains '!' = true := List.contains_iff_mem.mpr hb
        rw [this] at h
        cases h
      · simpa using h
  · rcases h1 with h1 | h1
    · rw [hF] at h1; cases h1
    · have := h1.2
      rw [hl, hc] at this
      simpa using this
  · rcases h2 with h2 | h2
    · rw [hC] at h2; cases h2
    · obtain ⟨w, r, rfl, hw⟩ := hm
      rw [hlt, dropWhile_blanks hP (by decide), List.tail_cons] at h2
      have : (w ++ ("#flpr".toList ++ r)).dropWhile (fun c => c == ' ' || c == '\t') = "#flpr".toList ++ r := by
        refine dropWhile_blanks (c := '#') (t := "flpr".toList ++ r) (fun x hx => ?_) (by decide)
        rcases hw x hx with rfl | rfl <;> rfl
      rw [this] at h2
      have : "#flpr".toList.isPrefixOf ("#flpr".toList ++ r) = true := List.isPrefixOf_iff_prefix.mpr (List.prefix_append _ _)
      rw [this] at h2
      cases h2

/-- A test for logical lines that are steady. -/
def steadyAll : List FileLine → Bool
  | [] => true
  | f :: fs => steadyOk false f && fs.all (steadyOk true)

theorem steadyAll_of {fs : List FileLine} (h : steadyAll fs = true) : SteadyLayout fs := by
  cases fs with
  | nil => trivial
  | cons f fs =>
    unfold steadyAll at h
    simp only [Bool.and_eq_true, List.all_eq_true] at h
    exact ⟨steady_of h.1, fun g hg => steady_of (h.2 g hg)⟩

/-- The groups of a free-format text. -/
def groupsOf (raws : List Str) : List Group :=
  match scanFree raws with
  | .ok (some gs) => gs
  | _ => []

/-- The lines made of some groups. -/
def linesFrom (gs : List Group) : List LLine :=
  match buildLines {} gs with
  | .ok r => r.1
  | .error _ => []

/-- The texts of the tokens. -/
def textsOfTokens (ls : List LLine) : List (List String) := ls.map (fun l => l.frags.map (fun t => String.ofList t.text))

/-- The text of a file after it was indented by the standard table with offset `n`. -/
def indentedText (n : Int) (t : PNode) (ls : List LLine) : Option (List String) :=
  match Ind.Table.new.constant n with
  | .ok tab =>
    match Ind.indent tab (stmtsOf ls) (some t) ls with
    | .ok r => some ((fileText r.1).map String.ofList)
    | .error _ => none
  | .error _ => none

/-- A program with a label, a comment, a split string, and a continued statement. -/
def xProgram : List Str :=
  ["program p", "if (a) then", "! note", "10 x = 'ab&", "   &cd'  ! c", "y = f(1, &", "! more", "   z)", "endif", "#if 1 \\", " x=1", "end"].map
    String.toList

/-- The hypotheses of `C74_reread_partial` can be met. -/
example : scanFree xProgram = .ok (some (groupsOf xProgram)) ∧
    (∃ st, buildLines {} (groupsOf xProgram) = .ok (linesFrom (groupsOf xProgram), st)) ∧ (∀ raw ∈ xProgram, AsciiStr raw) ∧
    (∀ l ∈ linesFrom (groupsOf xProgram), SteadyLayout l.layout) ∧
    ∃ o t, PReturns noExts .program (PF.stateOf (linesFrom (groupsOf xProgram)) (stmtsOf (linesFrom (groupsOf xProgram)))) (.ok o) ∧ o.ok = true ∧
      o.tree = some t ∧ indentedText 3 t (linesFrom (groupsOf xProgram)) = some ["program p", "   if (a) then", "      ! note",
        "10    x = 'ab&", "          &cd' ! c", "      y = f(1, &", "           ! more", "           z)", "   endif", "#if 1 \\", " x=1", "end"] := by
  refine ⟨?_, ?_, fun raw hr c hc => ?_, fun l hl => steadyAll_of ?_, ?_⟩
  · have h : (match scanFree xProgram with | .ok (some _) => true | _ => false) = true := by decide +kernel
    unfold groupsOf
    split at h
    · rename_i gs e
      rw [e]
    · cases h
  · have h : (match buildLines {} (groupsOf xProgram) with | .ok _ => true | _ => false) = true := by decide +kernel
    unfold linesFrom
    split at h
    · rename_i r e
      rw [e]
      exact ⟨r.2, rfl⟩
    · cases h
  · have h : xProgram.all (fun r => r.all isAscii) = true := by decide +kernel
    exact List.all_eq_true.mp (List.all_eq_true.mp h raw hr) c hc
  · have h : (linesFrom (groupsOf xProgram)).all (fun l => steadyAll l.layout) = true := by decide +kernel
    exact List.all_eq_true.mp h l hl
  · obtain ⟨o, h1, h2⟩ := returns_of (x := noExts) (r := .program)
      (s := PF.stateOf (linesFrom (groupsOf xProgram)) (stmtsOf (linesFrom (groupsOf xProgram))))
      (q := fun o => o.ok && o.tree.any (fun t => indentedText 3 t (linesFrom (groupsOf xProgram)) == some ["program p", "   if (a) then", "      ! note",
        "10    x = 'ab&", "          &cd' ! c", "      y = f(1, &", "           ! more", "           z)", "   endif", "#if 1 \\", " x=1", "end"])) 40
      (by decide +kernel)
    simp only [Bool.and_eq_true, beq_iff_eq, Option.any_eq_true] at h2
    obtain ⟨h2, t, h3, h4⟩ := h2
    exact ⟨o, t, h1, h2, h3, h4⟩

/-- C74 fails for a line that continues a statement, without an ampersand, in the first column: the character string has a blank more. -/
theorem C74_violation_column : ∃ o t, PReturns noExts .program
      (PF.stateOf (linesFrom (groupsOf (["program p", "x = 'ab&", "cd'", "end"].map String.toList)))
        (stmtsOf (linesFrom (groupsOf (["program p", "x = 'ab&", "cd'", "end"].map String.toList))))) (.ok o) ∧ o.ok = true ∧ o.tree = some t ∧
    textsOfTokens (linesFrom (groupsOf (["program p", "x = 'ab&", "cd'", "end"].map String.toList))) =
      [["program", "p"], ["x", "=", "'abcd'"], ["end"]] ∧
    indentedText 3 t (linesFrom (groupsOf (["program p", "x = 'ab&", "cd'", "end"].map String.toList))) =
      some ["program p", "   x = 'ab&", "        cd'", "end"] ∧
    textsOfTokens (linesFrom (groupsOf (["program p", "   x = 'ab&", "        cd'", "end"].map String.toList))) =
      [["program", "p"], ["x", "=", "'ab cd'"], ["end"]] := by
  obtain ⟨o, h1, h2⟩ := returns_of (x := noExts) (r := .program)
    (s := PF.stateOf (linesFrom (groupsOf (["program p", "x = 'ab&", "cd'", "end"].map String.toList)))
        (stmtsOf (linesFrom (groupsOf (["program p", "x = 'ab&", "cd'", "end"].map String.toList)))))
    (q := fun o => o.ok && o.tree.any (fun t => indentedText 3 t (linesFrom (groupsOf (["program p", "x = 'ab&", "cd'", "end"].map String.toList))) ==
      some ["program p", "   x = 'ab&", "        cd'", "end"])) 40 (by decide +kernel)
  simp only [Bool.and_eq_true, beq_iff_eq, Option.any_eq_true] at h2
  obtain ⟨h2, t, h3, h4⟩ := h2
  exact ⟨o, t, h1, h2, h3, by decide +kernel, h4, by decide +kernel⟩

/-- C74 fails for a comment in the first column that has a directive behind enough blanks: the comment becomes the directive. -/
theorem C74_violation_directive : ∃ o t, PReturns noExts .program
      (PF.stateOf (linesFrom (groupsOf (["program p", "!       #flpr x", "x=1", "end"].map String.toList)))
        (stmtsOf (linesFrom (groupsOf (["program p", "!       #flpr x", "x=1", "end"].map String.toList))))) (.ok o) ∧ o.ok = true ∧ o.tree = some t ∧
    (groupsOf (["program p", "!       #flpr x", "x=1", "end"].map String.toList)).map (·.cat) = [.unknown, .unknown, .unknown, .unknown] ∧
    indentedText 3 t (linesFrom (groupsOf (["program p", "!       #flpr x", "x=1", "end"].map String.toList))) =
      some ["program p", "   !#flpr x", "   x=1", "end"] ∧
    (groupsOf (["program p", "   !#flpr x", "   x=1", "end"].map String.toList)).map (·.cat) = [.unknown, .flpr_pp, .unknown, .unknown] := by
  obtain ⟨o, h1, h2⟩ := returns_of (x := noExts) (r := .program)
    (s := PF.stateOf (linesFrom (groupsOf (["program p", "!       #flpr x", "x=1", "end"].map String.toList)))
        (stmtsOf (linesFrom (groupsOf (["program p", "!       #flpr x", "x=1", "end"].map String.toList)))))
    (q := fun o => o.ok && o.tree.any (fun t => indentedText 3 t (linesFrom (groupsOf (["program p", "!       #flpr x", "x=1", "end"].map String.toList))) ==
      some ["program p", "   !#flpr x", "   x=1", "end"])) 40 (by decide +kernel)
  simp only [Bool.and_eq_true, beq_iff_eq, Option.any_eq_true] at h2
  obtain ⟨h2, t, h3, h4⟩ := h2
  exact ⟨o, t, h1, h2, h3, by decide +kernel, h4, by decide +kernel⟩

end FLPR
