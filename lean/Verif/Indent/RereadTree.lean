import Verif.Indent.RereadProps
import Verif.Indent.Props
import Verif.Program.AlikeProps
/-!
# Indenting a free-format file, writing it and reading it again: the tree, and indenting once more (C74)
-/

namespace FLPR
open Spec PP PF
open SP (Exts Strm)

theorem equivTok_of {t t' : Tok} (h : AlikeTok t t') : EquivTok t t' := by
  refine ⟨alikeTok_token h, by rw [alikeTok_text h], ?_⟩
  rw [h]
  unfold Tok.lowerText
  dsimp only
  split <;> rfl

/-- Lines whose tokens the parsers do not tell apart. -/
def ParsesLike (l l' : LLine) : Prop := List.Forall₂ EquivTok l.frags l'.frags

theorem stateOf_eqv {ls ls' : List LLine} (h : List.Forall₂ ParsesLike ls ls') (ss : List LLStmt) :
    EquivState (stateOf ls ss) (stateOf ls' ss) := by
  refine ⟨?_, rfl⟩
  show List.Forall₂ EquivStmt (ss.map (stmtView ls)) (ss.map (stmtView ls'))
  induction ss with
  | nil => exact .nil
  | cons s ss ih =>
    refine .cons ?_ ih
    have hs : EquivStmt ⟨s.label, sentryStrm⟩ ⟨s.label, sentryStrm⟩ := ⟨rfl, .nil, rfl, rfl, rfl⟩
    unfold stmtView
    cases s.line with
    | none => exact hs
    | some j =>
      cases s.range with
      | none => exact hs
      | some q =>
        obtain ⟨b, e⟩ := q
        dsimp only
        cases hj : ls[j]? with
        | none =>
          rw [List.getElem?_eq_none_iff] at hj
          rw [List.getElem?_eq_none (by rw [← h.length_eq]; exact hj)]
          exact hs
        | some l =>
          obtain ⟨l', h1, h2⟩ := forall2_getElem? h hj
          rw [h1]
          exact ⟨rfl, h2, rfl, rfl, rfl⟩

/-- C75: files with the same statements and with tokens that agree in tags and, but for the case of letters, in texts have the same
tree. -/
theorem C75_file (x : Exts) (hx : Indifferent x) (ls ls' : List LLine) (h : List.Forall₂ ParsesLike ls ls') (hs : stmtsOf ls' = stmtsOf ls)
    (t : Option PNode) (ht : TreeIs x ls t) : TreeIs x ls' t := by
  rcases ht with ⟨h1, h2⟩ | ⟨h1, o, h2, h3, h4⟩
  · exact .inl ⟨by rw [hs]; exact h1, h2⟩
  · obtain ⟨res, r1, r2⟩ := C75_program x hx .program _ _ (stateOf_eqv h (stmtsOf ls)) _ h2
    cases res with
    | error e => exact r2.elim
    | ok o' =>
      have r2 : SameResult o o' := r2
      refine .inr ⟨by rw [hs]; exact h1, o', by rw [hs]; exact r1, by rw [r2.ok, h3], by rw [r2.tree, h4]⟩

theorem moved_frags {l : LLine} {F : List Tok} {n cont : Int} (h : Ind.Stays cont n l) : Ind.Stays cont n { l with frags := F } := by
  obtain ⟨b, h⟩ := h
  refine ⟨b, ?_⟩
  obtain ⟨lb, cat, sup, nr, sm, lay, fr, ss⟩ := l
  cases lay with
  | nil => cases h
  | cons f fs =>
    have hf : (LLine.mk lb cat sup nr sm (f :: fs) F ss).hasFortran = (LLine.mk lb cat sup nr sm (f :: fs) fr ss).hasFortran := rfl
    unfold Ind.setLine at h ⊢
    dsimp only at h ⊢
    rw [hf]
    rbind h with r hr
    rbind h with m hm
    rbind h with rs hrs
    injection h with h
    have h1 := congrArg (fun p => p.1.layout) h
    have h2 := congrArg (fun p => p.2) h
    dsimp only at h1 h2
    rw [hr, Res.ok_bind, hm, Res.ok_bind, hrs, Res.ok_bind, h1, h2]

/-- C74: the file that is read again has the same tree.  Missing: as for `C74_reread_partial`. -/
theorem C74_tree_partial (x : Exts) (hx : Indifferent x) (raws : List Str) (ha : ∀ raw ∈ raws, AsciiStr raw) (gs : List Group)
    (hscan : scanFree raws = .ok (some gs)) (st st' : Flex.State) (lines : List LLine) (hbuild : buildLines st gs = .ok (lines, st'))
    (hs : ∀ l ∈ lines, SteadyLayout l.layout) (tab : Ind.Table) (hc : 0 < tab.continued) (t : PNode) (ht : TreeIs x lines (some t))
    (r : List LLine × Bool) (hi : Ind.indent tab (stmtsOf lines) (some t) lines = .ok r) :
    ∃ gs' lines', scanFree (fileText r.1) = .ok (some gs') ∧ buildLines st gs' = .ok (lines', st') ∧
      stmtsOf lines' = stmtsOf lines ∧ TreeIs x lines' (some t) ∧ lines'.map (·.layout) = r.1.map (·.layout) := by
  obtain ⟨gs', lines', h1, h2, h3, h4⟩ := C74_reread_partial raws ha gs hscan st st' lines hbuild hs tab hc _ t r hi
  have k1 := scanAs_stmts (type := .freefmt) (lastCol := 0) hscan hbuild
  have k2 := scanAs_stmts (type := .freefmt) (lastCol := 0) h1 h2
  have hst : stmtsOf lines' = stmtsOf lines := by
    rw [h4, k1] at k2
    injection k2 with k2
    injection k2 with k2
    exact k2.symm
  have hlen := (Ind.C34_indent tab _ t lines r hi).1
  have hfr : List.Forall₂ (fun l l' => l'.frags = l.frags) lines r.1 := by
    refine forall2_of_index hlen (fun j l hl => ?_)
    obtain ⟨l', e1, e2, _⟩ := Ind.C34_text tab _ t lines r hi j l hl
    exact ⟨l', e1, by rw [e2]⟩
  refine ⟨gs', lines', h1, h2, hst, C75_file x hx lines lines' ?_ hst _ ht, ?_⟩
  · clear hlen hi h4 h1 h2 k1 k2 hst hs hbuild ht
    generalize r.1 = m at hfr h3
    induction hfr generalizing lines' with
    | nil => cases h3; exact .nil
    | cons he _ ih =>
      cases h3 with
      | cons hx hxs =>
        refine .cons ?_ (ih _ hxs)
        show List.Forall₂ EquivTok _ _
        rw [← he]
        exact hx.2.imp (fun _ _ h => equivTok_of h)
  · clear hfr hlen hi h4 h1 h2 k1 k2 hst
    generalize r.1 = m at h3
    induction h3 with
    | nil => rfl
    | cons he _ ih =>
      rw [List.map_cons, List.map_cons, ih, he.1]

/-- C74: indenting a file that was indented, written and read again changes nothing any more: the text is the same.  Missing: as for
`C74_reread_partial`, and programs in which one statement ends several loops. -/
theorem C74_again_partial (x : Exts) (hx : Indifferent x) (hx' : x.Forward) (hn : NeedToken x) (raws : List Str) (ha : ∀ raw ∈ raws, AsciiStr raw)
    (gs : List Group) (hscan : scanFree raws = .ok (some gs)) (st st' : Flex.State) (lines : List LLine)
    (hbuild : buildLines st gs = .ok (lines, st')) (hs : ∀ l ∈ lines, SteadyLayout l.layout) (tab : Ind.Table) (hc : 0 < tab.continued)
    (t : PNode) (ht : TreeIs x lines (some t)) (hl : (leavesOf t).Nodup) (r : List LLine × Bool)
    (hi : Ind.indent tab (stmtsOf lines) (some t) lines = .ok r) :
    ∃ gs' lines' q, scanFree (fileText r.1) = .ok (some gs') ∧ buildLines st gs' = .ok (lines', st') ∧ TreeIs x lines' (some t) ∧
      Ind.indent tab (stmtsOf lines') (some t) lines' = .ok q ∧ fileText q.1 = fileText r.1 := by
  obtain ⟨gs', lines', h1, h2, h3, _⟩ := C74_reread_partial raws ha gs hscan st st' lines hbuild hs tab hc (stmtsOf lines) t r hi
  obtain ⟨gs2, lines2, g1, g2, hst, h4, h5⟩ := C74_tree_partial x hx raws ha gs hscan st st' lines hbuild hs tab hc t ht r hi
  rw [h1] at g1
  injection g1 with g1
  injection g1 with g1
  subst g1
  rw [h2] at g2
  injection g2 with g2
  injection g2 with g2 _
  subst g2
  have htree : TreeOk t := by
    rcases ht with ⟨_, e⟩ | ⟨_, o, e1, e2, e3⟩
    · cases e
    · exact ((C39_tree_partial x hx' hn .program _ (stateOf_full lines (stmtsOf lines)) o e1).2.2.2 t e3).1
  have hap := Ind.indentNode_spec tab _ t 0 lines r hi
  have hstab : Ind.Stable tab.continued (Ind.shift 0 (moves tab.offset (stmtsOf lines) t)) r.1 := by
    refine hap.stable ?_
    rw [Ind.shift_zero]
    exact Ind.C34_once tab.offset lines t htree hl
  have hstab' : Ind.Stable tab.continued (Ind.shift 0 (moves tab.offset (stmtsOf lines) t)) lines' := by
    intro m hm
    obtain ⟨l, e1, e2⟩ := hstab m hm
    obtain ⟨l', e3, e4, _⟩ := forall2_getElem? h3 e1
    refine ⟨l', e3, ?_⟩
    rw [e4]
    exact moved_frags e2
  obtain ⟨b, hb⟩ := Ind.indentNode_stable tab (stmtsOf lines) t 0 lines r lines' hi hstab'
  refine ⟨gs', lines', (lines', b), h1, h2, h4, ?_, ?_⟩
  · rw [hst]
    exact hb
  · unfold fileText
    have : ∀ ls : List LLine, ls.flatMap (fun l => l.layout.map FileLine.print) = (ls.map (·.layout)).flatMap (fun L => L.map FileLine.print) := by
      intro ls
      rw [List.flatMap_map]
    rw [this, this, h5]

/-- The hypotheses that the example of `C74_reread_partial` does not show can be met by the same program. -/
example : TreeIs noExts (linesFrom (groupsOf xProgram)) none ∨ ∃ t, TreeIs noExts (linesFrom (groupsOf xProgram)) (some t) ∧ (leavesOf t).Nodup := by
  right
  obtain ⟨o, h1, h2⟩ := returns_of (x := noExts) (r := .program)
    (s := PF.stateOf (linesFrom (groupsOf xProgram)) (stmtsOf (linesFrom (groupsOf xProgram))))
    (q := fun o => o.ok && o.tree.any (fun t => leavesOf t == [0, 1, 2, 3, 4, 5])) 40 (by decide +kernel)
  simp only [Bool.and_eq_true, beq_iff_eq, Option.any_eq_true] at h2
  obtain ⟨h2, t, h3, h4⟩ := h2
  have hne : stmtsOf (linesFrom (groupsOf xProgram)) ≠ [] := by
    have : (stmtsOf (linesFrom (groupsOf xProgram))).length = 6 := by decide +kernel
    intro e
    rw [e] at this
    cases this
  exact ⟨t, .inr ⟨hne, o, h1, h2, h3⟩, by rw [h4]; decide⟩

end FLPR
