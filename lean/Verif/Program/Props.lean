import Verif.Program.Defined
import Verif.Program.Mono
import Verif.Program.NestLemmas
/-!
# C39, C40, C58-C60: the program level parsers (src/flpr/Prgm_Parsers_utils.hh, Prgm_Parsers_impl.hh)
-/

namespace FLPR
namespace PP
open Spec
open SP (R SNode Rng Strm PRes PFail up up_ok up_inj ne_fuel_up up_ne_fuel Exts Conv Le)

/-- A result with some bound is the result. -/
theorem _root_.FLPR.Spec.PReturns.of_run {x : Exts} {r : PR} {s : PState} {res : Res POut} (n : Nat)
    (h : run x n r s = up res) : PReturns x r s res := by
  refine ⟨n, fun m hm => ?_⟩
  rcases run_le hm r s with e | e
  · rw [h] at e; exact absurd e (up_ne_fuel _)
  · rw [← e, h]

theorem _root_.FLPR.Spec.PReturns.run {x : Exts} {r : PR} {s : PState} {res : Res POut} (h : PReturns x r s res) :
    ∃ n, run x n r s = up res := by
  obtain ⟨N, h⟩ := h
  exact ⟨N, h N (le_refl _)⟩

theorem _root_.FLPR.Spec.PReturns.unique {x : Exts} {r : PR} {s : PState} {a b : Res POut}
    (h1 : PReturns x r s a) (h2 : PReturns x r s b) : a = b := by
  obtain ⟨N, h1⟩ := h1
  obtain ⟨M, h2⟩ := h2
  exact up_inj ((h1 (max N M) (by omega)).symm.trans (h2 (max N M) (by omega)))

/-! ### Programs for the examples -/

def xtok (t : Int) (w : String := "") : Tok := { token := t, line := 1, pos := 1, text := w.toList }

/-- A statement with a label and the given tokens. -/
def xstmt (l : Int) (ts : List Tok) : LStmt := ⟨l, Strm.mk' ts 0 ts.length⟩

/-- `do i=1,2` -/
def xDo : LStmt := xstmt 0 [xtok Tag.KW_DO, xtok Tag.TK_NAME, xtok Tag.TK_EQUAL, xtok Tag.SG_INT_LITERAL_CONSTANT,
  xtok Tag.TK_COMMA, xtok Tag.SG_INT_LITERAL_CONSTANT]
/-- `do 10 i=1,2` -/
def xDo10 : LStmt := xstmt 0 [xtok Tag.KW_DO, xtok Tag.SG_INT_LITERAL_CONSTANT "10", xtok Tag.TK_NAME, xtok Tag.TK_EQUAL,
  xtok Tag.SG_INT_LITERAL_CONSTANT, xtok Tag.TK_COMMA, xtok Tag.SG_INT_LITERAL_CONSTANT]
/-- `x=1`, with a label if it is positive -/
def xAssign (l : Int) : LStmt := xstmt l [xtok Tag.TK_NAME, xtok Tag.TK_EQUAL, xtok Tag.SG_INT_LITERAL_CONSTANT]
/-- `end do`, with a label if it is positive -/
def xEndDo (l : Int) : LStmt := xstmt l [xtok Tag.KW_END, xtok Tag.KW_DO]
/-- `end` -/
def xEnd : LStmt := xstmt 0 [xtok Tag.KW_END]
/-- `subroutine s` -/
def xSub : LStmt := xstmt 0 [xtok Tag.KW_SUBROUTINE, xtok Tag.TK_NAME]
/-- `associate (a => b)` -/
def xAssociate : LStmt := xstmt 0 [xtok Tag.KW_ASSOCIATE, xtok Tag.TK_PARENL, xtok Tag.TK_NAME, xtok Tag.TK_ARROW,
  xtok Tag.TK_NAME, xtok Tag.TK_PARENR]
/-- `block` -/
def xBlock : LStmt := xstmt 0 [xtok Tag.KW_BLOCK]

/-- A new state over all of some statements. -/
abbrev xstate (l : List LStmt) : PState := ⟨l, l.length, 0, [], [], 0, 0⟩

theorem xstate_full (l : List LStmt) : Full (xstate l) := ⟨rfl, Nat.zero_le _⟩

/-- A test of the result of a call. -/
def outIs (w : PRes POut) (q : POut → Bool) : Bool :=
  match w with
  | .ok o => q o
  | .error _ => false

def failIs (w : PRes POut) (e : Fail) : Bool :=
  match w, e with
  | .error (.fail .assertion), .assertion => true
  | .error (.fail .ub), .ub => true
  | .error (.fail .exc), .exc => true
  | _, _ => false

theorem returns_of {x : Exts} {r : PR} {s : PState} {q : POut → Bool} (n : Nat) (h : outIs (run x n r s) q = true) :
    ∃ o, PReturns x r s (.ok o) ∧ q o = true := by
  cases hw : run x n r s with
  | error e => rw [hw] at h; cases h
  | ok o => rw [hw] at h; exact ⟨o, .of_run n hw, h⟩

theorem fails_of {x : Exts} {r : PR} {s : PState} {e : Fail} (n : Nat) (h : failIs (run x n r s) e = true) :
    PReturns x r s (.error e) := by
  refine .of_run n ?_
  cases hw : run x n r s with
  | ok o => rw [hw] at h; cases h
  | error f =>
    rw [hw] at h
    cases f with
    | fuel => cases h
    | fail f => cases f <;> cases e <;> first | rfl | cases h

theorem needToken_none : NeedToken noExts := by intro e he; simp [noExts] at he

/-! ### C59: every call ends -/

/-- C59: a call of any parser of the program grammar, with any extensions that go forward and want a
token, on a whole list of statements ends, and in one way only.  Missing: states over a part of a list,
where it is false (`C59_violation_part`). -/
theorem C59_terminates_partial (x : Exts) (hx : x.Forward) (hn : NeedToken x) (r : PR) (s : PState) (hs : Full s) :
    ∃ res, PReturns x r s res ∧ ∀ res', PReturns x r s res' → res' = res := by
  obtain ⟨N, v, hv, h⟩ := run_conv hx hn r s hs
  obtain ⟨res, rfl⟩ := ne_fuel_up hv
  exact ⟨res, ⟨N, h⟩, fun res' h' => h'.unique ⟨N, h⟩⟩

example : ∃ res, PReturns noExts .program (xstate [xSub, xDo10, xDo10, xAssign 10, xEnd]) res :=
  let ⟨res, h, _⟩ := C59_terminates_partial noExts SP.forward_none needToken_none .program _ (xstate_full _)
  ⟨res, h⟩

/-! ### C39: the tree and the statements -/

/-- C39, for every grammar over the program level combinators and all statement parsers that return
no tree to be hoisted: the leaves of the tree of a result are statements in order, from where the state
was, none after where it is left, and every node has the range of its leaves, in which none is left
out.  When no parser gave up on the way, the leaves are all the statements from where the state was
to where it is left; one that ends several loops is there once for each of them, and when it is still
to be taken by an outer loop, it is there as well.  Missing: with a parser having given up statements
are lost (`C39_violation_*`). -/
theorem C39_term_partial (c : R → Bool) (sp : StmtP) (g : PR → PBody) (hsp : NoHoist c sp) (hg : ∀ r, (g r).only c = true)
    (n : Nat) (p : T) (hp : p.only c = true) (s : PState) (o : POut) (h : eval sp g n p s = .ok o) :
    s.pos ≤ o.s.pos ∧ (o.ok = false → o.tree = none) ∧
    ∀ t, o.tree = some t → TreeOk t ∧ (leavesOf t).Pairwise (· ≤ ·) ∧ (∀ i ∈ leavesOf t, s.pos ≤ i ∧ i ≤ o.s.pos) ∧
      (o.s.abandoned = s.abandoned →
        ∃ e, (e = o.s.pos ∨ e = o.s.pos + 1) ∧ s.pos ≤ e ∧ squash (leavesOf t) = List.range' s.pos (e - s.pos)) := by
  have hi := eval_inv hsp hg n p s o hp h
  refine ⟨hi.step.pos, hi.none, fun t ht => ?_⟩
  have hst := hi.step
  rw [ht] at hst
  refine ⟨(hi.donor t ht).ok, hst.within.sorted, fun i hm => ⟨hst.within.low i hm, hst.within.high i hm⟩, fun ha => ?_⟩
  obtain ⟨_, e, e1, e2, e3⟩ := hst.span ha
  exact ⟨e, e2, e1, e3⟩

/-- C39 for the parsers of the library on a whole list of statements: as above, and all leaves are
statements of the list.  Missing: as above. -/
theorem C39_tree_partial (x : Exts) (hx : x.Forward) (hn : NeedToken x) (r : PR) (s : PState) (hs : Full s) (o : POut)
    (h : PReturns x r s (.ok o)) :
    s.pos ≤ o.s.pos ∧ o.s.pos ≤ s.stmts.length ∧ (o.ok = false → o.tree = none) ∧
    ∀ t, o.tree = some t → TreeOk t ∧ (leavesOf t).Pairwise (· ≤ ·) ∧
      (∀ i ∈ leavesOf t, s.pos ≤ i ∧ i ≤ o.s.pos ∧ i < s.stmts.length) ∧
      (o.s.abandoned = s.abandoned →
        ∃ e, (e = o.s.pos ∨ e = o.s.pos + 1) ∧ s.pos ≤ e ∧ e ≤ s.stmts.length ∧
          squash (leavesOf t) = List.range' s.pos (e - s.pos)) := by
  obtain ⟨n, h⟩ := h.run
  have hb := (run_inv h).step.bound hs.2
  rw [hs.1] at hb
  obtain ⟨h1, h2, h3⟩ := C39_term_partial usedStmts _ _ (noHoist x n) pgrammar_only n (.rule r) rfl s o h
  refine ⟨h1, hb, h2, fun t ht => ?_⟩
  obtain ⟨a1, a2, a3, a4⟩ := h3 t ht
  have hlt := run_safe hx hn hs h
  rw [ht, hs.1] at hlt
  refine ⟨a1, a2, fun i hm => ⟨(a3 i hm).1, (a3 i hm).2, hlt i hm⟩, fun ha => ?_⟩
  obtain ⟨e, e1, e2, e3⟩ := a4 ha
  refine ⟨e, e1, e2, ?_, e3⟩
  rcases e1 with rfl | rfl
  · exact hb
  · have hmem : o.s.pos ∈ squash (leavesOf t) := by
      rw [e3]
      exact List.mem_range'_1.mpr ⟨h1, by omega⟩
    exact hlt _ (mem_squash.mp hmem)

theorem coverBranches_tag {a n : PNode} (h : coverBranches a = .ok n) : n.tag = a.tag := by
  obtain ⟨t, r, i, ks⟩ := a
  cases i with
  | some i => simp only [coverBranches] at h; injection h with h; subst h; rfl
  | none =>
    simp only [coverBranches] at h
    rbind h with q hq
    injection h with h; subst h; rfl

theorem attachTree_tag (a : PNode) (d : Option PNode) : (attachTree a d).tag = a.tag := by
  cases d with
  | none => rfl
  | some d => exact hoistBack_tag a d

/-- C39 for `program`: a match takes the whole list, and the leaves of the tree are the statements of a
stretch of it, all of it up to the end when no parser gave up. -/
theorem C39_program_partial (x : Exts) (hx : x.Forward) (hn : NeedToken x) (s : PState) (hs : Full s) (o : POut)
    (h : PReturns x .program s (.ok o)) (hk : o.ok = true) :
    ∃ t, o.tree = some t ∧ t.tag = Tag.PG_PROGRAM ∧ o.s.pos = s.stmts.length ∧
      (o.s.abandoned = s.abandoned → squash (leavesOf t) = List.range' s.pos (s.stmts.length - s.pos)) := by
  have h0 := h
  obtain ⟨n, h⟩ := h.run
  have hhi := (run_inv h).step.hi
  obtain ⟨h1, _, _, h4⟩ := C39_tree_partial x hx hn .program s hs o h0
  have key : o.s.pos = s.stmts.length ∧ ∃ t, o.tree = some t ∧ t.tag = Tag.PG_PROGRAM := by
    rw [run] at h
    generalize SP.evalRule SP.R.body x n = sp at h
    match n, h with
    | 0, h => cases h
    | 1, h => cases h
    | m + 2, h =>
      change step sp PR.body (eval sp PR.body m) m
        (.seq Tag.PG_PROGRAM [.plus Tag.HOIST (.rule .program_unit), .endStream]) s = .ok o at h
      simp only [step] at h
      pbind h with q hq
      simp only [seqLoop] at hq
      pbind hq with a ha
      by_cases hka : a.ok = true
      · rw [if_pos hka] at hq
        pbind hq with b hb
        have hb' : b.ok = true → b.s.pos = b.s.hi := by
          intro hk
          cases m with
          | zero => cases hb
          | succ m =>
            simp only [eval, step] at hb
            by_cases hg : a.s.good = true
            · rw [if_pos hg] at hb
              pbind hb with s' hs'
              injection hb with hb; subst hb; cases hk
            · rw [if_neg hg] at hb
              injection hb with hb; subst hb
              simpa [PState.good] using hg
        by_cases hkb : b.ok = true
        · rw [if_pos hkb] at hq
          injection hq with hq
          subst hq
          rw [if_pos rfl] at h
          pbind h with t ht
          injection h with h
          subst h
          have hp := hb' hkb
          have e1 : b.s.hi = s.hi := hhi
          refine ⟨?_, t, rfl, ?_⟩
          · show b.s.pos = _
            rw [hp, e1, hs.1]
          · rw [(coverBranches_tag (up_ok ht))]
            show (attachTree (attachTree _ _) _).tag = _
            rw [attachTree_tag, attachTree_tag, PNode.tag]
        · rw [if_neg hkb] at hq
          injection hq with hq
          subst hq
          rw [if_neg (by simp)] at h
          pbind h with s' hs'
          injection h with h; subst h; cases hk
      · rw [if_neg hka] at hq
        injection hq with hq
        subst hq
        rw [if_neg (by simp)] at h
        pbind h with s' hs'
        injection h with h; subst h; cases hk
  obtain ⟨hp, t, ht, htag⟩ := key
  refine ⟨t, ht, htag, hp, fun ha => ?_⟩
  obtain ⟨e, e1, e2, e3, e4⟩ := (h4 t ht).2.2.2 ha
  have : e = s.stmts.length := by omega
  rw [← this]
  exact e4

/-- The program `subroutine s; do 10 i=1,2; do 10 i=1,2; 10 x=1; end` matches with nothing given up, so
that its leaves are all five statements; the last statement of the loops is there twice. -/
theorem C39_violation_shared : ∃ o t, PReturns noExts .program (xstate [xSub, xDo10, xDo10, xAssign 10, xEnd]) (.ok o) ∧
    o.ok = true ∧ o.s.abandoned = 0 ∧ o.tree = some t ∧ leavesOf t = [0, 1, 2, 3, 3, 4] := by
  obtain ⟨o, h1, h2⟩ := returns_of (x := noExts) (r := .program) (s := xstate [xSub, xDo10, xDo10, xAssign 10, xEnd])
    (q := fun o => o.ok && o.s.abandoned == 0 && o.tree.any (fun t => leavesOf t == [0, 1, 2, 3, 3, 4])) 40 (by decide +kernel)
  simp only [Bool.and_eq_true, beq_iff_eq, Option.any_eq_true] at h2
  obtain ⟨⟨h2, h3⟩, t, h4, h5⟩ := h2
  exact ⟨o, t, h1, h2, h3, h4, h5⟩

/-- C39 fails when a loop is not closed: `do i=1,2; x=1; end` matches as a program without a message,
with a tree of one statement. -/
theorem C39_violation_silent : ∃ o t, PReturns noExts .program (xstate [xDo, xAssign 0, xEnd]) (.ok o) ∧
    o.ok = true ∧ o.s.complaints = 0 ∧ o.tree = some t ∧ leavesOf t = [2] := by
  obtain ⟨o, h1, h2⟩ := returns_of (x := noExts) (r := .program) (s := xstate [xDo, xAssign 0, xEnd])
    (q := fun o => o.ok && o.s.complaints == 0 && o.tree.any (fun t => leavesOf t == [2])) 40 (by decide +kernel)
  simp only [Bool.and_eq_true, beq_iff_eq, Option.any_eq_true] at h2
  obtain ⟨⟨h2, h3⟩, t, h4, h5⟩ := h2
  exact ⟨o, t, h1, h2, h3, h4, h5⟩

/-- C39 fails behind the last program unit: `subroutine s; end; x=1` matches as a program, and the tree
does not have the last statement; there is a message. -/
theorem C39_violation_trailing : ∃ o t, PReturns noExts .program (xstate [xSub, xEnd, xAssign 0]) (.ok o) ∧
    o.ok = true ∧ o.s.complaints = 1 ∧ o.tree = some t ∧ leavesOf t = [0, 1] := by
  obtain ⟨o, h1, h2⟩ := returns_of (x := noExts) (r := .program) (s := xstate [xSub, xEnd, xAssign 0])
    (q := fun o => o.ok && o.s.complaints == 1 && o.tree.any (fun t => leavesOf t == [0, 1])) 40 (by decide +kernel)
  simp only [Bool.and_eq_true, beq_iff_eq, Option.any_eq_true] at h2
  obtain ⟨⟨h2, h3⟩, t, h4, h5⟩ := h2
  exact ⟨o, t, h1, h2, h3, h4, h5⟩

/-- C39 fails inside a program unit: on `subroutine s; associate (a => b); end` an assertion fails,
because the tree of the unit would have a hole. -/
theorem C39_violation_hole : PReturns noExts .program (xstate [xSub, xAssociate, xEnd]) (.error .assertion) :=
  fails_of 40 (by decide +kernel)

/-! ### C58: no match, no statement taken -/

/-- C58: a program level parser that does not match leaves the state at the statement where it was, if
no parser called on the way gave up.  Missing: `Sequence_Parser`, `Sequence_If_Parser` and the do
construct leave the state where they gave up (`C58_violation`). -/
theorem C58_rewinds_partial (c : R → Bool) (sp : StmtP) (g : PR → PBody) (hsp : NoHoist c sp)
    (hg : ∀ r, (g r).only c = true) (n : Nat) (p : T) (hp : p.only c = true) (s : PState) (o : POut)
    (h : eval sp g n p s = .ok o) (hk : o.ok = false) (ha : o.s.abandoned = s.abandoned) : o.s.pos = s.pos := by
  have hi := eval_inv hsp hg n p s o hp h
  obtain ⟨h1, e, e1, e2, e3⟩ := (hi.failed (by simp [hk])).span ha
  have : e - s.pos = 0 := by
    have := congrArg List.length e3
    simpa [squash] using this.symm
  omega

/-- C58 for the library: on a whole list, either the state is at the statement where it was, or some
parser gave up. -/
theorem C58_library_partial (x : Exts) (r : PR) (s : PState) (o : POut)
    (h : PReturns x r s (.ok o)) (hk : o.ok = false) : o.s.pos = s.pos ∨ s.abandoned < o.s.abandoned := by
  obtain ⟨n, h⟩ := h.run
  have hle := (run_inv h).step.abandoned
  by_cases ha : o.s.abandoned = s.abandoned
  · exact .inl (C58_rewinds_partial usedStmts _ _ (noHoist x n) pgrammar_only n (.rule r) rfl s o h hk ha)
  · exact .inr (by omega)

/-- On `x=1` the parser of do constructs does not match, and nothing is given up. -/
example : ∃ o, PReturns noExts .do_construct (xstate [xAssign 0]) (.ok o) ∧ o.ok = false ∧ o.s.abandoned = 0 ∧ o.s.pos = 0 := by
  obtain ⟨o, h1, h2⟩ := returns_of (x := noExts) (r := .do_construct) (s := xstate [xAssign 0])
    (q := fun o => !o.ok && o.s.abandoned == 0 && o.s.pos == 0) 40 (by decide +kernel)
  simp only [Bool.and_eq_true, beq_iff_eq, Bool.not_eq_true'] at h2
  exact ⟨o, h1, h2.1.1, h2.1.2, h2.2⟩

/-- C58 fails: on `do i=1,2; x=1; end` the parser of do constructs does not match and leaves the state
at the third statement. -/
theorem C58_violation : ∃ o, PReturns noExts .do_construct (xstate [xDo, xAssign 0, xEnd]) (.ok o) ∧ o.ok = false ∧
    o.tree.isNone = true ∧ o.s.pos = 2 := by
  obtain ⟨o, h1, h2⟩ := returns_of (x := noExts) (r := .do_construct) (s := xstate [xDo, xAssign 0, xEnd])
    (q := fun o => !o.ok && o.tree.isNone && o.s.pos == 2) 40 (by decide +kernel)
  simp only [Bool.and_eq_true, beq_iff_eq, Bool.not_eq_true'] at h2
  exact ⟨o, h1, h2.1.1, h2.1.2, h2.2⟩

/-! ### C40: the end of the list -/

/-- No statement parser does anything undefined on the statement, and the label of a label-do-stmt can
be read. -/
structure Tame (x : Exts) (st : LStmt) : Prop where
  parse : ∀ r, ¬ Returns x r st.strm (.error .ub)
  label : ∀ t q, Returns x .do_stmt st.strm (.ok (some t, q)) → getLabelDoLabel st.strm.all t ≠ .error .ub

theorem Tame.behaves {x : Exts} {st : LStmt} (h : Tame x st) (n : Nat) : Behaves (SP.evalRule SP.R.body x n) st :=
  ⟨fun r e => h.parse r (.of_eval n e), fun t q e => h.label t q (.of_eval n e)⟩

/-- The hidden statement behind the last one is tame. -/
theorem tame_sentry : Tame noExts sentry := by
  have h : SP.R.all.all (fun r => match SP.evalRule SP.R.body noExts 40 r sentryStrm with
      | .ok w => (r != .do_stmt) || w.1.isNone | .error _ => false) = true := by decide +kernel
  have key : ∀ r, ∃ w, Returns noExts r sentryStrm (.ok w) ∧ (r = .do_stmt → w.1 = none) := by
    intro r
    have := List.all_eq_true.mp h r (SP.R.mem_all r)
    cases hw : SP.evalRule SP.R.body noExts 40 r sentryStrm with
    | error e => rw [hw] at this; cases this
    | ok w =>
      rw [hw] at this
      refine ⟨w, .of_eval 40 hw, ?_⟩
      rintro rfl
      simpa using this
  refine ⟨fun r e => ?_, fun t q e => ?_⟩
  · obtain ⟨w, hw, _⟩ := key r
    have := e.unique hw
    cases this
  · obtain ⟨w, hw, hn⟩ := key .do_stmt
    have := e.unique hw
    injection this with this
    subst this
    cases hn rfl

/-- C40: on a whole list of statements the program level parsers do nothing undefined: if the
statement parsers do not, on the statements of the list and the hidden element behind it, then neither
does the call.  Missing: states over a part of a list (`C40_violation_part`), and that the statement
behind the last one is looked at (`C40_violation_hidden`). -/
theorem C40_defined_partial (x : Exts) (hx : x.Forward) (hn : NeedToken x) (r : PR) (s : PState) (hs : Full s)
    (h0 : Tame x sentry) (ht : ∀ st ∈ s.stmts, Tame x st) : ¬ PReturns x r s (.error .ub) := by
  intro h
  obtain ⟨n, h⟩ := h.run
  refine run_def hx hn hs (n := n) (r := r) ?_ h
  intro st hst
  rcases List.mem_cons.mp hst with rfl | hst
  · exact h0.behaves n
  · exact (ht st hst).behaves n

/-- C40: without extensions nothing need be said of the hidden element. -/
theorem C40_builtin_partial (r : PR) (s : PState) (hs : Full s) (ht : ∀ st ∈ s.stmts, Tame noExts st) :
    ¬ PReturns noExts r s (.error .ub) :=
  C40_defined_partial noExts SP.forward_none needToken_none r s hs tame_sentry ht

/-- C40: no leaf of a tree is the hidden statement. -/
theorem C40_leaves (x : Exts) (hx : x.Forward) (hn : NeedToken x) (r : PR) (s : PState) (hs : Full s) (o : POut) (t : PNode)
    (h : PReturns x r s (.ok o)) (ht : o.tree = some t) : ∀ i ∈ leavesOf t, i < s.stmts.length :=
  fun i hi => (((C39_tree_partial x hx hn r s hs o h).2.2.2 t ht).2.2.1 i hi).2.2

/-! Statements on which the statement parsers are known to be defined (C55). -/

mutual
theorem covers_sub {l : List Int} : ∀ (n : SNode) b e, Covers l n b e → b ≤ e ∧ RangeIs n.range b e
  | .node t r [], b, e, h => by
    rw [Covers] at h
    rcases h with ⟨h1, h2, _⟩ | ⟨h1, h2⟩
    · exact ⟨by omega, .inl ⟨by omega, h2⟩⟩
    · exact ⟨by omega, .inr ⟨h1.symm, h2⟩⟩
  | .node t r (k :: ks), b, e, h => by
    rw [Covers] at h
    exact ⟨coversAll_le (k :: ks) b e h.2, h.1⟩
theorem coversAll_le {l : List Int} : ∀ (ks : List SNode) b e, CoversAll l ks b e → b ≤ e
  | [], b, e, h => by rw [CoversAll] at h; omega
  | k :: ks, b, e, h => by
    rw [CoversAll] at h
    obtain ⟨_, m, h1, h2⟩ := h
    have := (covers_sub k b m h1).1
    have := coversAll_le ks m e h2
    omega
end

/-- Everything at a cursor and behind it is over tokens before `e`. -/
def CurOk (l : List Int) (e : Nat) (c : Cur) : Prop := ∀ n ∈ c.1 :: c.2, ∃ b m, m ≤ e ∧ Covers l n b m

theorem coversAll_mem {l : List Int} : ∀ (ks : List SNode) b e, CoversAll l ks b e → ∀ n ∈ ks, ∃ b' m, m ≤ e ∧ Covers l n b' m
  | [], b, e, _, n, hn => by cases hn
  | k :: ks, b, e, h, n, hn => by
    rw [CoversAll] at h
    obtain ⟨_, m, h1, h2⟩ := h
    rcases List.mem_cons.mp hn with rfl | hn
    · exact ⟨b, m, coversAll_le ks m e h2, h1⟩
    · exact coversAll_mem ks m e h2 n hn

theorem CurOk.down {l : List Int} {e : Nat} {c d : Cur} (h : CurOk l e c) (hd : c.down = .ok d) : CurOk l e d := by
  obtain ⟨n, ns⟩ := c
  obtain ⟨b, m, hm, hc⟩ := h n (by simp)
  obtain ⟨t, r, ks⟩ := n
  unfold Cur.down at hd
  cases ks with
  | nil => cases hd
  | cons k ks =>
    simp only [SNode.kids] at hd
    injection hd with hd; subst hd
    rw [Covers] at hc
    intro n hn
    obtain ⟨b', m', h1, h2⟩ := coversAll_mem _ _ _ hc.2 n hn
    exact ⟨b', m', by omega, h2⟩

theorem CurOk.next {l : List Int} {e : Nat} {c d : Cur} (h : CurOk l e c) (hd : c.next = .ok d) : CurOk l e d := by
  obtain ⟨n, ns⟩ := c
  unfold Cur.next at hd
  cases ns with
  | nil => cases hd
  | cons k ks =>
    injection hd with hd; subst hd
    intro n hn
    exact h n (List.mem_cons_of_mem _ hn)

theorem down_def (c : Cur) : OkR c.down := by
  unfold Cur.down
  cases c.1.kids with
  | nil => exact okR_assert
  | cons k ks => exact okR_ok _

theorem next_def (c : Cur) : OkR c.next := by
  unfold Cur.next
  cases c.2 with
  | nil => exact okR_assert
  | cons k ks => exact okR_ok _

theorem stoi_def (w : Str) : OkR (stoi w) := by
  unfold stoi
  simp only
  generalize List.takeWhile isDigit _ = ds
  by_cases h1 : ds = []
  · rw [if_pos h1]; exact okR_exc
  · rw [if_neg h1]
    split <;> split <;> first | exact okR_ok _ | exact okR_exc

theorem labelValue_def {toks : List Tok} {l : List Int} {c : Cur} (h : CurOk l toks.length c) : OkR (labelValue toks c.1) := by
  obtain ⟨b, m, hm, hc⟩ := h c.1 (by simp)
  have hr := (covers_sub _ _ _ hc).2
  unfold labelValue
  split
  · exact okR_assert
  · cases hq : c.1.range with
    | none => exact okR_assert
    | some w =>
      obtain ⟨p, q⟩ := w
      simp only
      by_cases hpq : q = p + 1
      · rw [if_pos hpq]
        have : p < toks.length := by
          rw [hq] at hr
          rcases hr with ⟨h1, h2⟩ | ⟨_, h2⟩
          · injection h2 with h2; injection h2 with h2 h3; omega
          · simp [SP.Rng.isEmpty] at h2; omega
        refine okR_bind ?_ (fun _ _ => stoi_def _)
        unfold SP.derefTok
        rw [if_pos this]
        exact okR_ok _
      · rw [if_neg hpq]; exact okR_assert

theorem labelFrom_def {toks : List Tok} {l : List Int} {c : Cur} (h : CurOk l toks.length c) : OkR (labelFrom toks c) := by
  unfold labelFrom
  split
  · refine okR_bind (next_def _) (fun c1 h1 => okR_bind (next_def _) (fun c2 h2 => okR_bind (next_def _) (fun c3 h3 =>
      okR_bind (down_def _) (fun c4 h4 => ?_))))
    exact labelValue_def ((((h.next h1).next h2).next h3).down h4)
  · refine okR_bind (next_def _) (fun c3 h3 => okR_bind (down_def _) (fun c4 h4 => ?_))
    exact labelValue_def ((h.next h3).down h4)

theorem getLabel_def {toks : List Tok} {l : List Int} {t : SNode} {b e : Nat} (he : e ≤ toks.length) (h : Covers l t b e) :
    OkR (getLabelDoLabel toks t) := by
  have h0 : CurOk l toks.length (t, []) := by
    intro n hn
    simp at hn; subst hn
    exact ⟨b, e, he, h⟩
  unfold getLabelDoLabel
  split
  · refine okR_bind (down_def _) (fun c hc => ?_)
    split
    · exact okR_ok _
    · exact okR_bind (down_def _) (fun d hd => labelFrom_def ((h0.down hc).down hd))
  · split
    · exact okR_ok _
    · exact okR_bind (down_def _) (fun d hd => labelFrom_def (h0.down hd))

/-- A statement with properly nested parentheses that does not end in one is tame. -/
theorem tame_good {x : Exts} (hx : GoodExts x) {st : LStmt} (h : GoodStmt st.strm) (he : ¬ EndsInParen st.strm) : Tame x st := by
  constructor
  · intro r hr
    obtain ⟨w, hw⟩ := SP.C55_defined_partial x hx r st.strm h (.inr he) _ hr
    cases hw
  · intro t q hq
    obtain ⟨_, h2, _, h4⟩ := SP.C26_covers_partial x hx .do_stmt st.strm q t h hq
    exact getLabel_def (Nat.le_trans h2 h.hi_len) h4

/-- C40 for lists of statements on which the statement parsers are known to be defined. -/
theorem C40_good_partial (r : PR) (s : PState) (hs : Full s)
    (h : ∀ st ∈ s.stmts, GoodStmt st.strm ∧ ¬ EndsInParen st.strm) : ¬ PReturns noExts r s (.error .ub) :=
  C40_builtin_partial r s hs (fun st hst => tame_good SP.goodExts_none (h st hst).1 (h st hst).2)

/-- An example for the theorems of C40. -/
theorem tame_assign : GoodStmt (xAssign 0).strm ∧ ¬ EndsInParen (xAssign 0).strm := by
  have ht : tagsOf (xAssign 0).strm = [Tag.TK_NAME, Tag.TK_EQUAL, Tag.SG_INT_LITERAL_CONSTANT] := by decide +kernel
  refine ⟨⟨by decide, by decide, by decide, ?_, 0, by decide, ?_⟩, ?_⟩
  · rw [ht]; exact SP.goodTags_of (by decide +kernel)
  · rw [ht]
    show WellNested [Tag.TK_NAME, Tag.TK_EQUAL, Tag.SG_INT_LITERAL_CONSTANT]
    exact .plain (by unfold Plain; decide) (.plain (by unfold Plain; decide) (.plain (by unfold Plain; decide) .nil))
  · intro h
    have := h.2
    revert this
    decide +kernel

example : ¬ PReturns noExts .program (xstate [xAssign 0, xAssign 0]) (.error .ub) :=
  C40_good_partial .program _ (xstate_full _) (by intro st hst; simp at hst; subst hst; exact tame_assign)

/-- C40 fails for a state over a part of a list: with `subroutine s; end` and the range of the first
statement only, the parser takes the second one. -/
theorem C40_violation_part : ∃ o t, PReturns noExts .program ⟨[xSub, xEnd], 1, 0, [], [], 0, 0⟩ (.ok o) ∧
    o.ok = true ∧ o.tree = some t ∧ leavesOf t = [0, 1] := by
  obtain ⟨o, h1, h2⟩ := returns_of (x := noExts) (r := .program) (s := ⟨[xSub, xEnd], 1, 0, [], [], 0, 0⟩)
    (q := fun o => o.ok && o.tree.any (fun t => leavesOf t == [0, 1])) 40 (by decide +kernel)
  simp only [Bool.and_eq_true, beq_iff_eq, Option.any_eq_true] at h2
  obtain ⟨h2, t, h4, h5⟩ := h2
  exact ⟨o, t, h1, h2, h4, h5⟩

/-- C40 fails at the end of a list: on the one statement `block`, an interface statement is recognized
in the hidden element behind it, which is given a tree. -/
theorem C40_violation_hidden : ∃ o u, PReturns noExts .block_construct (xstate [xBlock]) (.ok o) ∧
    (1, u) ∈ o.s.attached ∧ u.tag = Tag.SG_INTERFACE_STMT := by
  obtain ⟨o, h1, h2⟩ := returns_of (x := noExts) (r := .block_construct) (s := xstate [xBlock])
    (q := fun o => o.s.attached.any (fun w => w.1 == 1 && w.2.tag == Tag.SG_INTERFACE_STMT)) 40 (by decide +kernel)
  simp only [Bool.and_eq_true, beq_iff_eq, List.any_eq_true] at h2
  obtain ⟨⟨i, u⟩, h3, h4, h5⟩ := h2
  simp only at h4 h5
  subst h4
  exact ⟨o, u, h1, h3, h5⟩

/-! A loop over a part of a list. -/

/-- Inside the loop `do i=1,2; x=1`, over the first statement only. -/
def loopState (a : List (Nat × SNode)) : PState := ⟨[xDo, xAssign 0], 1, 1, [], a, 0, 0⟩

/-- A statement is what a parser says when it is asked. -/
theorem is_of {x : Exts} {r : R} {st : LStmt} (n : Nat)
    (h : SP.holdsFor (SP.evalRule SP.R.body x n r st.strm) (fun t _ => t.any (fun t => t.tag != Tag.HOIST)) = true) :
    ∃ u, Is x r st u := by
  obtain ⟨t, q, h1, h2⟩ := SP.returns_of_holds (x := x) (r := r) (s := st.strm) (q := fun t _ => t.any (fun t => t.tag != Tag.HOIST)) n h
  obtain ⟨t, rfl, h2⟩ := Option.any_eq_true _ _ |>.mp h2
  exact ⟨t, q, h1, by simpa using h2⟩

/-- It is a do-stmt with a label. -/
theorem do_of {x : Exts} {st : LStmt} {l : Int} (n : Nat)
    (h : SP.holdsFor (SP.evalRule SP.R.body x n .do_stmt st.strm) (fun t _ => t.any (fun t => t.tag != Tag.HOIST &&
      (match getLabelDoLabel st.strm.all t with | .ok v => v == l | .error _ => false))) = true) :
    ∃ u, Is x .do_stmt st u ∧ getLabelDoLabel st.strm.all u = .ok l := by
  obtain ⟨t, q, h1, h2⟩ := SP.returns_of_holds (x := x) (r := .do_stmt) (s := st.strm) (q := fun t _ => t.any (fun t =>
    t.tag != Tag.HOIST && (match getLabelDoLabel st.strm.all t with | .ok v => v == l | .error _ => false))) n h
  cases t with
  | none => cases h2
  | some t =>
    rw [Option.any_some, Bool.and_eq_true] at h2
    refine ⟨t, ⟨q, h1, by simpa using h2.1⟩, ?_⟩
    have h2 := h2.2
    cases hl : getLabelDoLabel st.strm.all t with
    | error e => rw [hl] at h2; cases h2
    | ok v => rw [hl] at h2; simp at h2; rw [h2]

/-- It is not what some parsers take. -/
theorem not_of {x : Exts} {rs : List R} {st : LStmt} (n : Nat)
    (h : rs.all (fun r => SP.holdsFor (SP.evalRule SP.R.body x n r st.strm) (fun t q => t.isNone && q == st.strm)) = true) :
    ∀ r ∈ rs, Not x r st := by
  intro r hr
  obtain ⟨t, q, h1, h2⟩ := SP.returns_of_holds (x := x) (r := r) (s := st.strm) (q := fun t q => t.isNone && q == st.strm) n
    (List.all_eq_true.mp h r hr)
  simp only [Bool.and_eq_true, beq_iff_eq, Option.isNone_iff_eq_none] at h2
  rw [h2.1, h2.2] at h1
  exact h1

theorem loop_turn (a : List (Nat × SNode)) : ∃ N t u, ∀ m n, N ≤ m → N ≤ n → eval (SP.evalRule SP.R.body noExts m) PR.body n
    (.rule .execution_part_construct) (loopState a) = .ok ⟨some t, true, loopState ((1, u) :: a)⟩ := by
  obtain ⟨u, hu⟩ := is_of (x := noExts) (r := .action_stmt) (st := xAssign 0) 20 (by decide +kernel)
  obtain ⟨N, h⟩ := E.part_action (x := noExts) (s := loopState a) (st := xAssign 0) rfl rfl hu
  exact ⟨N, _, u, fun m n hm hn => h m n N hm hn (le_refl _)⟩

theorem loop_forever (n m : Nat) : ∀ k a acc,
    blockLoop (eval (SP.evalRule SP.R.body noExts n) PR.body m) k (loopState a) acc = .error .fuel
  | 0, a, acc => rfl
  | k + 1, a, acc => by
    obtain ⟨N, t, u, h⟩ := loop_turn a
    rw [blockLoop]
    have h1 : Le (eval (SP.evalRule SP.R.body noExts n) PR.body m (.rule .execution_part_construct) (loopState a))
        (eval (SP.evalRule SP.R.body noExts (max n N)) PR.body (max m N) (.rule .execution_part_construct) (loopState a)) :=
      eval_le PR.body (fun r s => SP.evalRule_le SP.R.body noExts (by omega) r s) m _ _ _ (by omega)
    rw [h _ _ (Nat.le_max_right _ _) (Nat.le_max_right _ _)] at h1
    rcases h1 with h1 | h1
    · rw [h1]; rfl
    · rw [h1, SP.PRes.ok_bind]
      exact loop_forever n m k _ _

/-- C59 fails for a state over a part of a list: the call of the parser of do constructs with
`do i=1,2; x=1` and the range of the first statement only does not return. -/
theorem C59_violation_part (res : Res POut) :
    ¬ PReturns noExts .do_construct ⟨[xDo, xAssign 0], 1, 0, [], [], 0, 0⟩ res := by
  rintro ⟨N, h⟩
  have key : ∀ n, run noExts n .do_construct ⟨[xDo, xAssign 0], 1, 0, [], [], 0, 0⟩ = .error .fuel := by
    intro n
    match n with
    | 0 => rfl
    | m + 1 =>
      show runDo (SP.evalRule SP.R.body noExts (m + 1)) _ m _ = _
      obtain ⟨t, ⟨q, hr, _⟩, hl⟩ := do_of (x := noExts) (st := xDo) (l := 0) 20 (by decide +kernel)
      obtain ⟨M, hM⟩ := hr
      have hle := SP.evalRule_le SP.R.body noExts (Nat.le_max_left (m + 1) M) .do_stmt xDo.strm
      rw [hM _ (Nat.le_max_right _ _)] at hle
      have hcur : (⟨[xDo, xAssign 0], 1, 0, [], [], 0, 0⟩ : PState).cur = .ok xDo := rfl
      rw [runDo, hcur]
      show (SP.evalRule SP.R.body noExts (m + 1) .do_stmt xDo.strm >>= _) = _
      rcases hle with e | e
      · rw [e]; rfl
      · rw [e]
        show (up (getLabelDoLabel xDo.strm.all t) >>= _) = _
        rw [hl]
        show (blockLoop _ m (loopState [(0, t)]) _ >>= _) = _
        rw [loop_forever]
        rfl
  have := h N (le_refl _)
  rw [key N] at this
  exact up_ne_fuel _ this.symm

/-! ### C60: how loops end -/

/-- C60 fails: a label on the `end do` of a loop without one, `subroutine s; do i=1,2; x=1; 20 end do; end`,
makes an assertion fail. -/
theorem C60_violation_label : PReturns noExts .program (xstate [xSub, xDo, xAssign 0, xEndDo 20, xEnd]) (.error .assertion) :=
  fails_of 40 (by decide +kernel)

/-- C60 fails: in `subroutine s; do 10 i=1,2; do i=1,2; 10 x=1; end do; end` the inner loop is ended by
the statement 10 of the outer one, and the outer one by the `end do` of the inner one: the branches of
the outer construct are statement 1, a block with the statements 2 and 3, and statement 4. -/
theorem C60_violation_crossed : ∃ o t, PReturns noExts .do_construct ⟨[xSub, xDo10, xDo, xAssign 10, xEndDo 0, xEnd], 6, 1, [], [], 0, 0⟩ (.ok o) ∧
    o.ok = true ∧ o.s.complaints = 0 ∧ o.tree = some t ∧ t.tag = Tag.PG_DO_CONSTRUCT ∧
    t.kids.map leavesOf = [[1], [2, 3], [4]] := by
  obtain ⟨o, h1, h2⟩ := returns_of (x := noExts) (r := .do_construct)
    (s := ⟨[xSub, xDo10, xDo, xAssign 10, xEndDo 0, xEnd], 6, 1, [], [], 0, 0⟩)
    (q := fun o => o.ok && o.s.complaints == 0 && o.tree.any (fun t => t.tag == Tag.PG_DO_CONSTRUCT &&
      t.kids.map leavesOf == [[1], [2, 3], [4]])) 40 (by decide +kernel)
  simp only [Bool.and_eq_true, beq_iff_eq, Option.any_eq_true] at h2
  obtain ⟨⟨h2, h3⟩, t, h4, h5, h6⟩ := h2
  exact ⟨o, t, h1, h2, h3, h4, h5, h6⟩

/-- C60 fails: a loop `do 10 i=1,2` ended by an `end do` without the label leaves its label behind, and
then the subroutine `subroutine s; 10 x=1; end` that follows is not recognized. -/
theorem C60_violation_stale :
    (∃ o, PReturns noExts .program (xstate [xSub, xAssign 10, xEnd]) (.ok o) ∧ o.ok = true) ∧
    (∃ o, PReturns noExts .program (xstate [xSub, xDo10, xAssign 0, xEndDo 0, xEnd]) (.ok o) ∧ o.ok = true ∧
      o.s.complaints = 0) ∧
    ∃ o, PReturns noExts .program (xstate [xSub, xDo10, xAssign 0, xEndDo 0, xEnd, xSub, xAssign 10, xEnd]) (.ok o) ∧
      o.ok = false := by
  refine ⟨?_, ?_, ?_⟩
  · obtain ⟨o, h1, h2⟩ := returns_of (x := noExts) (r := .program) (s := xstate [xSub, xAssign 10, xEnd])
      (q := fun o => o.ok) 40 (by decide +kernel)
    exact ⟨o, h1, h2⟩
  · obtain ⟨o, h1, h2⟩ := returns_of (x := noExts) (r := .program) (s := xstate [xSub, xDo10, xAssign 0, xEndDo 0, xEnd])
      (q := fun o => o.ok && o.s.complaints == 0) 40 (by decide +kernel)
    simp only [Bool.and_eq_true, beq_iff_eq] at h2
    exact ⟨o, h1, h2.1, h2.2⟩
  · obtain ⟨o, h1, h2⟩ := returns_of (x := noExts) (r := .program)
      (s := xstate [xSub, xDo10, xAssign 0, xEndDo 0, xEnd, xSub, xAssign 10, xEnd])
      (q := fun o => !o.ok) 40 (by decide +kernel)
    exact ⟨o, h1, by simpa using h2⟩

/-- C60 for nests of loops of any depth whose labels are used once: with the statements of such a
nest in front, the parser of the constructs of an execution part matches, takes those statements and no
others, gives each one its own tree, and leaves the labels of the loops around as they were; its result
is the tree in which each loop ends with its own last statement.

Missing: last statements shared by several loops, and loops that end in another way. -/
theorem C60_nest_partial {x : Exts} {s : PState} {t : Item} {rest : List LStmt} (hi : s.hi = s.stmts.length)
    (hk : ∀ r ∈ s.stack, 0 < r.label) (hf : t.Fits x (topOf s.stack)) (ha : s.stmts.drop s.pos = t.flat ++ rest) :
    PReturns x .execution_part_construct s (.ok ⟨some (t.tree s.pos), true,
      { s with pos := s.pos + t.flat.length, attached := t.given s.pos ++ s.attached }⟩) :=
  (nest_one t s rest ⟨hi, hk⟩ hf ha).returns

/-- A nest for the theorem: `do 10 i=1,2; do i=1,2; x=1; end do; 10 x=1`. -/
theorem nest_example : ∃ t : Item, t.Fits noExts 0 ∧ t.flat = [xDo10, xDo, xAssign 0, xEndDo 0, xAssign 10] := by
  obtain ⟨u1, h1, l1⟩ := do_of (x := noExts) (st := xDo10) (l := 10) 20 (by decide +kernel)
  obtain ⟨u2, h2, l2⟩ := do_of (x := noExts) (st := xDo) (l := 0) 20 (by decide +kernel)
  obtain ⟨u3, h3⟩ := is_of (x := noExts) (r := .action_stmt) (st := xAssign 0) 20 (by decide +kernel)
  obtain ⟨u4, h4⟩ := is_of (x := noExts) (r := .end_do_stmt) (st := xEndDo 0) 20 (by decide +kernel)
  obtain ⟨u5, h5⟩ := is_of (x := noExts) (r := .action_stmt) (st := xAssign 10) 20 (by decide +kernel)
  refine ⟨.action 10 xDo10 u1 [.loop xDo u2 [.act (xAssign 0) u3] (xEndDo 0) u4] (xAssign 10) u5, ?_, rfl⟩
  simp only [Item.Fits, Item.FitAll]
  refine ⟨by decide, by decide, by decide, ⟨not_of 30 (by decide +kernel), h1, l1⟩, ⟨⟨by decide,
    ⟨not_of 30 (by decide +kernel), h2, l2⟩, ⟨⟨by decide, h3⟩, trivial⟩, by decide,
    ⟨not_of 30 (by decide +kernel), not_of 30 (by decide +kernel)⟩, h4⟩, trivial⟩, by decide,
    not_of 30 (by decide +kernel), ?_, h5⟩
  exact not_of (rs := [.end_do]) 30 (by decide +kernel) _ (by simp)

example : ∃ o, PReturns noExts .execution_part_construct (xstate [xDo10, xDo, xAssign 0, xEndDo 0, xAssign 10, xEnd]) (.ok o) ∧
    o.s.pos = 5 ∧ o.s.stack = [] := by
  obtain ⟨t, h1, h2⟩ := nest_example
  exact ⟨_, C60_nest_partial rfl (by simp) h1 (rest := [xEnd]) (by rw [h2]; rfl), by simp [h2], rfl⟩

end PP
end FLPR
