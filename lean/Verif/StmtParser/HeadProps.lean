import Verif.StmtParser.HeadLemmas
/-!
# C84: if, where and forall statements are a head with a statement behind it
-/

namespace FLPR
namespace SP
open Spec

theorem dispatch_of {x : Exts} {tag : Int} {r : R} (hd : dispatchTable.find? (fun q => q.1 == tag) = some (tag, r)) {s : Strm}
    {res : Res (Option SNode × Strm)} : DispatchReturns x tag s res ↔ Returns x r s res := by
  rw [dispatch_iff, hd]

theorem headThen_of {x : Exts} (hx : GoodExts x) (he : x.End) {tag tag2 : Int} {r r2 : R} {H : Form} {s : Strm} (hs : GoodStmt s)
    (hd : dispatchTable.find? (fun q => q.1 == tag) = some (tag, r)) (hd2 : dispatchTable.find? (fun q => q.1 == tag2) = some (tag2, r2))
    (h1 : tag2 ≠ Tag.SG_IMPORT_STMT) (h2 : tag2 ≠ Tag.SG_INTERFACE_STMT) (h3 : tag2 ≠ Tag.SG_LOOP_CONTROL)
    (h : ((∃ t q, Returns x r s (.ok (some t, q))) ↔ ∃ w i, s.pos ≤ i ∧ i ≤ s.hi ∧ restOf s = w ++ restOf (s.goto i) ∧ H.Is w ∧
      ∃ t q, Returns x r2 (s.goto i) (.ok (some t, q)) ∧ restOf q = []) ∧
      (Returns x r s (.error .ub) ↔ ∃ w i, s.pos ≤ i ∧ i ≤ s.hi ∧ restOf s = w ++ restOf (s.goto i) ∧ H.Is w ∧
      Returns x r2 (s.goto i) (.error .ub))) :
    (Recognised x tag s ↔ HeadThen H (Recognised x tag2) s) ∧ (Undefined x tag s ↔ HeadThen H (Undefined x tag2) s) := by
  constructor
  · unfold Recognised HeadThen
    simp only [dispatch_of hd]
    rw [h.1]
    constructor
    · rintro ⟨w, i, g1, g2, g3, g4, t, q, g5, _⟩
      exact ⟨w, i, g1, g2, g3, g4, t, q, (dispatch_of hd2).mpr g5⟩
    · rintro ⟨w, i, g1, g2, g3, g4, t, q, g5⟩
      have hg := goto_good hs g1 g2
      have hw := C53_whole_partial x hx he tag2 _ q t hg h1 h2 h3 g5
      obtain ⟨a1, a2, a3, _⟩ := C26_dispatch_partial x hx tag2 _ q t hg g5
      have hl := restOf_length (goto_good hg a1 a2)
      refine ⟨w, i, g1, g2, g3, g4, t, q, (dispatch_of hd2).mp g5, ?_⟩
      rw [a3]
      refine List.length_eq_zero_iff.mp (hl.trans ?_)
      rw [Strm.goto_hi, Strm.goto_pos, hw]
      simp
  · unfold Undefined HeadThen
    simp only [dispatch_of hd, dispatch_of hd2]
    exact h.2

/-- C84: an if statement is recognised exactly if it is `if (expr)` and something behind it that the
parser of action statements recognises, and it is undefined exactly where that parser is undefined. -/
theorem C84_if (x : Exts) (hx : GoodExts x) (hf : x.Forward) (he : x.End) (s : Strm) (hs : GoodStmt s) :
    (Recognised x Tag.SG_IF_STMT s ↔ HeadThen ifHead (Recognised x Tag.SG_ACTION_STMT) s) ∧
    (Undefined x Tag.SG_IF_STMT s ↔ HeadThen ifHead (Undefined x Tag.SG_ACTION_STMT) s) :=
  headThen_of hx he hs (r := .if_stmt) (r2 := .action_stmt) (by decide +kernel) (by decide +kernel) (by decide) (by decide) (by decide)
    (headed hx hf (hd := [.tok Tag.KW_IF, .parens Tag.HOIST [.rule .logical_expr]])
      (Fs := (formsOf (toForm 40) [.tok Tag.KW_IF, .parens Tag.HOIST [.rule .logical_expr]]).getD []) rfl
      (by decide +kernel) (by decide +kernel) (by decide +kernel) (by decide +kernel) (by decide +kernel) hs)

/-- C84 for where statements: `where (expr)` and an assignment. -/
theorem C84_where (x : Exts) (hx : GoodExts x) (hf : x.Forward) (he : x.End) (s : Strm) (hs : GoodStmt s) :
    (Recognised x Tag.SG_WHERE_STMT s ↔ HeadThen Std.whereMask (Recognised x Tag.SG_ASSIGNMENT_STMT) s) ∧
    (Undefined x Tag.SG_WHERE_STMT s ↔ HeadThen Std.whereMask (Undefined x Tag.SG_ASSIGNMENT_STMT) s) :=
  headThen_of hx he hs (r := .where_stmt) (r2 := .assignment_stmt) (by decide +kernel) (by decide +kernel) (by decide) (by decide) (by decide)
    (headed hx hf (hd := [.tok Tag.KW_WHERE, .parens Tag.HOIST [.rule .logical_expr]])
      (Fs := (formsOf (toForm 40) [.tok Tag.KW_WHERE, .parens Tag.HOIST [.rule .logical_expr]]).getD []) rfl
      (by decide +kernel) (by decide +kernel) (by decide +kernel) (by decide +kernel) (by decide +kernel) hs)

/-- C84 for forall statements: `forall`, a concurrent header and an assignment or a pointer assignment. -/
theorem C84_forall (x : Exts) (hx : GoodExts x) (hf : x.Forward) (he : x.End) (s : Strm) (hs : GoodStmt s) :
    (Recognised x Tag.SG_FORALL_STMT s ↔ HeadThen forallHead (Recognised x Tag.SG_FORALL_ASSIGNMENT_STMT) s) ∧
    (Undefined x Tag.SG_FORALL_STMT s ↔ HeadThen forallHead (Undefined x Tag.SG_FORALL_ASSIGNMENT_STMT) s) :=
  headThen_of hx he hs (r := .forall_stmt) (r2 := .forall_assignment_stmt) (by decide +kernel) (by decide +kernel) (by decide) (by decide) (by decide)
    (headed hx hf (hd := [.tok Tag.KW_FORALL, .rule .concurrent_header])
      (Fs := (formsOf (toForm 40) [.tok Tag.KW_FORALL, .rule .concurrent_header]).getD []) rfl
      (by decide +kernel) (by decide +kernel) (by decide +kernel) (by decide +kernel) (by decide +kernel) hs)

/-! ### `action_stmt` and `forall_assignment_stmt` are their alternatives -/

theorem dispatch_first : ∀ q ∈ dispatchTable, dispatchTable.find? (fun q' => q'.1 == q.1) = some q := by
  decide +kernel

theorem action_dispatched : ∀ r ∈ actionAlts, ∃ q ∈ dispatchTable, q.2 = r := by
  have h : actionAlts.all (fun r => dispatchTable.any (fun q => decide (q.2 = r))) = true := by decide +kernel
  intro r hr
  obtain ⟨q, h1, h2⟩ := List.any_eq_true.mp (List.all_eq_true.mp h r hr)
  exact ⟨q, h1, by simpa using h2⟩

/-- An action statement is recognised wherever a statement of one of the kinds is, if no parser can fail. -/
theorem action_of_alt {x : Exts} (hx : GoodExts x) (hf : x.Forward) {s : Strm} (hs : GoodStmt s) (hp : ¬ EndsInParen s) {r : R} (hr : r ∈ actionAlts)
    (h : ∃ t q, Returns x r s (.ok (some t, q))) : ∃ t q, Returns x .action_stmt s (.ok (some t, q)) := by
  obtain ⟨res, hres, _⟩ := C52_terminates x hf .action_stmt s
  obtain ⟨⟨t, q⟩, rfl⟩ := C55_defined_partial x hx .action_stmt s hs (.inr hp) res hres
  cases t with
  | some t => exact ⟨t, q, hres⟩
  | none =>
    exfalso
    obtain ⟨n, hn⟩ := hres.eval
    rw [evalRule, action_body, runBody] at hn
    pbind hn with o ho
    cases n with
    | zero => cases ho
    | succ n =>
      rw [eval, step] at ho
      pbind ho with o1 ho1
      have hk := altsLoop_some hf _ _ _ ho1 r hr h
      rw [if_pos hk] at ho
      pbind ho with c hc
      injection ho with ho
      subst ho
      rw [if_pos rfl] at hn
      injection hn with hn
      injection hn with hn
      cases hn

theorem action_order : Spec.actionOrder.map (fun t => dispatchTable.find? (fun q => q.1 == t)) =
    (Spec.actionOrder.zip actionAlts).map some ∧ Spec.actionOrder.length = actionAlts.length := by
  decide +kernel

theorem firstOf_dispatch {x : Exts} {s : Strm} : ∀ (ts : List Int) (rs : List R), ts.length = rs.length →
    ts.map (fun t => dispatchTable.find? (fun q => q.1 == t)) = (ts.zip rs).map some →
    (FirstOf (NoR x s) (YesR x s) rs ↔ FirstOf (Rejected x · s) (Recognised x · s) ts) ∧
    (FirstOf (NoR x s) (UbR x s) rs ↔ FirstOf (Rejected x · s) (Undefined x · s) ts)
  | [], [], _, _ => ⟨Iff.rfl, Iff.rfl⟩
  | [], _ :: _, h, _ => by cases h
  | _ :: _, [], h, _ => by cases h
  | t :: ts, r :: rs, hl, h => by
    rw [List.map_cons, List.zip_cons_cons, List.map_cons] at h
    injection h with h1 h2
    obtain ⟨i1, i2⟩ := firstOf_dispatch (x := x) (s := s) ts rs (Nat.succ.inj hl) h2
    have e1 : NoR x s r ↔ Rejected x t s := by unfold NoR Rejected; simp only [dispatch_of h1]
    have e2 : YesR x s r ↔ Recognised x t s := by unfold YesR Recognised; simp only [dispatch_of h1]
    have e3 : UbR x s r ↔ Undefined x t s := by unfold UbR Undefined; simp only [dispatch_of h1]
    rw [FirstOf, FirstOf, FirstOf, FirstOf, i1, i2, e1, e2, e3]
    exact ⟨Iff.rfl, Iff.rfl⟩

/-- C84: without extensions the kinds of action statements are tried in the order of `actionOrder`; the
first that does not refuse decides, by its tree or by being undefined. -/
theorem C84_action (s : Strm) (hs : GoodStmt s) :
    (Recognised noExts Tag.SG_ACTION_STMT s ↔ FirstOf (Rejected noExts · s) (Recognised noExts · s) actionOrder) ∧
    (Undefined noExts Tag.SG_ACTION_STMT s ↔ FirstOf (Rejected noExts · s) (Undefined noExts · s) actionOrder) := by
  obtain ⟨h1, h2⟩ := choice (r := .action_stmt) (rs := actionAlts) (.inr action_body) hs
  obtain ⟨g1, g2⟩ := firstOf_dispatch (x := noExts) (s := s) _ _ action_order.2 action_order.1
  rw [← g1, ← g2, ← h1, ← h2]
  unfold Recognised Undefined YesR UbR
  simp only [dispatch_of (tag := Tag.SG_ACTION_STMT) (r := .action_stmt) (by decide +kernel), iff_self, and_self]

/-- C84: the assignment of a forall statement is tried as an assignment, then as a pointer assignment. -/
theorem C84_forall_assignment (s : Strm) (hs : GoodStmt s) :
    (Recognised noExts Tag.SG_FORALL_ASSIGNMENT_STMT s ↔
      FirstOf (Rejected noExts · s) (Recognised noExts · s) [Tag.SG_ASSIGNMENT_STMT, Tag.SG_POINTER_ASSIGNMENT_STMT]) ∧
    (Undefined noExts Tag.SG_FORALL_ASSIGNMENT_STMT s ↔
      FirstOf (Rejected noExts · s) (Undefined noExts · s) [Tag.SG_ASSIGNMENT_STMT, Tag.SG_POINTER_ASSIGNMENT_STMT]) := by
  obtain ⟨h1, h2⟩ := choice (r := .forall_assignment_stmt) (rs := [.assignment_stmt, .pointer_assignment_stmt]) (.inl rfl) hs
  obtain ⟨g1, g2⟩ := firstOf_dispatch (x := noExts) (s := s) [Tag.SG_ASSIGNMENT_STMT, Tag.SG_POINTER_ASSIGNMENT_STMT]
    [.assignment_stmt, .pointer_assignment_stmt] rfl (by decide +kernel)
  rw [← g1, ← g2, ← h1, ← h2]
  unfold Recognised Undefined YesR UbR
  simp only [dispatch_of (tag := Tag.SG_FORALL_ASSIGNMENT_STMT) (r := .forall_assignment_stmt) (by decide +kernel), iff_self, and_self]

/-- C84: without extensions, a statement that does not end in `)` is recognised as an action statement
exactly if it is recognised as one of the kinds that `is_action_stmt` says yes to.  Missing: statements
that end in `)`, where an earlier kind may be undefined (`C84_action` has them). -/
theorem C84_action_partial (s : Strm) (hs : GoodStmt s) (hp : ¬ EndsInParen s) :
    Recognised noExts Tag.SG_ACTION_STMT s ↔ ∃ tag, isActionStmt tag = true ∧ Recognised noExts tag s := by
  unfold Recognised
  simp only [dispatch_of (tag := Tag.SG_ACTION_STMT) (r := .action_stmt) (by decide +kernel)]
  constructor
  · rintro ⟨t, q, h⟩
    obtain ⟨r, hr, k, _, _, _, hk⟩ := action_alt h
    obtain ⟨⟨tag, _⟩, h1, rfl⟩ := action_dispatched r hr
    exact ⟨tag, (C56_action_tags tag).mpr ⟨_, hr, h1⟩, k, q, (dispatch_of (dispatch_first _ h1)).mpr hk⟩
  · rintro ⟨tag, ha, t, q, h⟩
    obtain ⟨r, hr, h1⟩ := (C56_action_tags tag).mp ha
    exact action_of_alt goodExts_none forward_none hs hp hr ⟨t, q, (dispatch_of (dispatch_first _ h1)).mp h⟩

/-- C84: with any extensions, what is recognised as some kind of action statement is recognised as an
action statement, if it does not end in `)`. -/
theorem C84_action_any (x : Exts) (hx : GoodExts x) (hf : x.Forward) (s : Strm) (hs : GoodStmt s) (hp : ¬ EndsInParen s) (tag : Int)
    (ha : isActionStmt tag = true) (h : Recognised x tag s) : Recognised x Tag.SG_ACTION_STMT s := by
  obtain ⟨t, q, h⟩ := h
  obtain ⟨r, hr, h1⟩ := (C56_action_tags tag).mp ha
  obtain ⟨t', q', h'⟩ := action_of_alt hx hf hs hp hr ⟨t, q, (dispatch_of (dispatch_first _ h1)).mp h⟩
  exact ⟨t', q', (dispatch_of (by decide +kernel)).mpr h'⟩

/-- C84: with no extensions, a statement that does not end in `)` is an if statement exactly if it is
`if (expr)` and a statement of one of the kinds that `is_action_stmt` says yes to.
Missing: statements that end in `)`, see `C84_if` and `C84_action`. -/
theorem C84_if_action_partial (s : Strm) (hs : GoodStmt s) (hp : ¬ EndsInParen s) :
    Recognised noExts Tag.SG_IF_STMT s ↔ HeadThen ifHead (fun s' => ∃ tag, isActionStmt tag = true ∧ Recognised noExts tag s') s := by
  rw [(C84_if noExts goodExts_none forward_none ends_none s hs).1]
  constructor
  · rintro ⟨w, i, h1, h2, h3, h4, h5⟩
    exact ⟨w, i, h1, h2, h3, h4, (C84_action_partial _ (goto_good hs h1 h2) hp).mp h5⟩
  · rintro ⟨w, i, h1, h2, h3, h4, h5⟩
    exact ⟨w, i, h1, h2, h3, h4, (C84_action_partial _ (goto_good hs h1 h2) hp).mpr h5⟩

/-- C84: `if (expr)` and an action statement with a form of C63 - a `go to`, a `return` with or without
an expression, a `continue`, ... - is recognised as an if statement, if it does not end in `)`. -/
theorem C84_if_simple (x : Exts) (hx : GoodExts x) (hf : x.Forward) (he : x.End) (tag : Int) (G : Form)
    (h : (tag, G) ∈ Std.simpleForms ++ Std.arrayForms) (ha : isActionStmt tag = true) (s : Strm) (hs : GoodStmt s) (hp : ¬ EndsInParen s)
    (hi : (Form.seq ifHead G).Is (restOf s)) : Recognised x Tag.SG_IF_STMT s := by
  rw [(C84_if x hx hf he s hs).1]
  obtain ⟨w, v, e, h1, h2⟩ := hi
  have hlen := restOf_length hs
  have hph := hs.pos_hi
  have hlw := congrArg List.length e
  rw [List.length_append] at hlw
  have hv : restOf (s.goto (s.pos + w.length)) = v := by
    have h5 : (s.all.take s.hi).drop s.pos = w ++ v := e
    show (s.all.take s.hi).drop (s.pos + w.length) = v
    rw [← List.drop_drop, h5]
    simp
  have hg := goto_good hs (q := s.pos + w.length) (by omega) (by omega)
  refine ⟨w, s.pos + w.length, by omega, by omega, by rw [hv, e], h1, ?_⟩
  refine C84_action_any x hx hf _ hg hp tag ha ?_
  rw [C63_recognised x hx hf tag G h _ hg, hv]
  exact h2

/-- C84 disagrees with the constraint on R1139 in the standard that the action statement of an if statement is no if
statement: `if (a)` in front of any if statement is one as well. -/
theorem C84_violation_nested (x : Exts) (hx : GoodExts x) (hf : x.Forward) (he : x.End) (s : Strm) (hs : GoodStmt s) (hp : ¬ EndsInParen s)
    (h : HeadThen ifHead (Recognised x Tag.SG_IF_STMT) s) : Recognised x Tag.SG_IF_STMT s := by
  rw [(C84_if x hx hf he s hs).1]
  obtain ⟨w, i, h1, h2, h3, h4, h5⟩ := h
  exact ⟨w, i, h1, h2, h3, h4, C84_action_any x hx hf _ (goto_good hs h1 h2) hp _ (by decide +kernel) h5⟩

/-- C84 disagrees with what a parser should do with half a statement: `if (expr)` with nothing behind it is
not refused, it is undefined, whatever the expression.  The assignment is tried where nothing is left, and
`procedure_designator` makes a range of tokens that ends before it begins. -/
theorem C84_violation_bare (s : Strm) (hs : GoodStmt s) (h : ifHead.Is (restOf s)) : Undefined noExts Tag.SG_IF_STMT s := by
  rw [(C84_if noExts goodExts_none forward_none ends_none s hs).2]
  have hg : GoodStmt (s.goto s.hi) := goto_good hs hs.pos_hi (le_refl _)
  have hr : restOf (s.goto s.hi) = [] := List.length_eq_zero_iff.mp ((restOf_length hg).trans (by simp))
  refine ⟨restOf s, s.hi, hs.pos_hi, le_refl _, by rw [hr, List.append_nil], h, ?_⟩
  have he : EndsInParen (s.goto s.hi) := by
    have := ifHead_ends hs h
    exact this
  have hu : UbR noExts (s.goto s.hi) .action_stmt := (choice (r := .action_stmt) (rs := actionAlts) (.inr action_body) hg).2.mpr
    (.inr ⟨no_at_end (kw := Tag.KW_ALLOCATE) goodExts_none forward_none (r := .allocate_stmt) rfl (by decide) hg hr,
      .inl (halts_ub goodExts_none forward_none hg (halts_assignment hg he hr))⟩)
  exact (dispatch_of (by decide +kernel)).mpr hu

/-! ### Examples -/

/-- `if (a) go to 10` meets the hypotheses of `C84_if_simple`. -/
example : ∃ s, GoodStmt s ∧ ¬ EndsInParen s ∧ (Tag.SG_GOTO_STMT, Std.gotoStmt) ∈ Std.simpleForms ++ Std.arrayForms ∧
    isActionStmt Tag.SG_GOTO_STMT = true ∧ (Form.seq ifHead Std.gotoStmt).Is (restOf s) := by
  refine ⟨lineOf [Tag.KW_IF, Tag.TK_PARENL, Tag.TK_NAME, Tag.TK_PARENR, Tag.KW_GO, Tag.KW_TO, Tag.SG_INT_LITERAL_CONSTANT], ?_, ?_,
    by decide +kernel, by decide +kernel, ?_⟩
  · refine good_of (goodTags_of (by decide +kernel)) ?_
    refine .plain ⟨by decide, by decide, by decide, by decide⟩ ?_
    refine .paren (a := [Tag.TK_NAME]) (b := [Tag.KW_GO, Tag.KW_TO, Tag.SG_INT_LITERAL_CONSTANT])
      (.plain ⟨by decide, by decide, by decide, by decide⟩ .nil) ?_
    exact .plain ⟨by decide, by decide, by decide, by decide⟩ <| .plain ⟨by decide, by decide, by decide, by decide⟩ <|
      .plain ⟨by decide, by decide, by decide, by decide⟩ .nil
  · rintro ⟨_, h⟩
    exact absurd h (by decide +kernel)
  · refine ⟨[tokOf Tag.KW_IF, tokOf Tag.TK_PARENL, tokOf Tag.TK_NAME, tokOf Tag.TK_PARENR], _, rfl, ?_, ?_⟩
    · refine ⟨[tokOf Tag.KW_IF], _, rfl, ⟨_, rfl, rfl⟩, [tokOf Tag.TK_PARENL, tokOf Tag.TK_NAME, tokOf Tag.TK_PARENR], [], rfl, ?_, rfl⟩
      refine ⟨[tokOf Tag.TK_PARENL], _, rfl, ⟨_, rfl, rfl⟩, [tokOf Tag.TK_NAME], _, rfl, ?_, [tokOf Tag.TK_PARENR], [], rfl, ⟨_, rfl, rfl⟩, rfl⟩
      exact ⟨.plain ⟨by decide, by decide, by decide, by decide⟩ (by decide) (by decide) (by decide) .nil, _, _, rfl, by decide, by decide⟩
    · exact ⟨[tokOf Tag.KW_GO], _, rfl, ⟨_, rfl, rfl⟩, [tokOf Tag.KW_TO], _, rfl, ⟨_, rfl, rfl⟩,
        [tokOf Tag.SG_INT_LITERAL_CONSTANT], [], rfl, ⟨_, rfl, rfl⟩, rfl⟩

/-- `if (a) if (b) return` is recognised. -/
example : Recognised noExts Tag.SG_IF_STMT (lineOf [Tag.KW_IF, Tag.TK_PARENL, Tag.TK_NAME, Tag.TK_PARENR,
    Tag.KW_IF, Tag.TK_PARENL, Tag.TK_NAME, Tag.TK_PARENR, Tag.KW_RETURN]) := by
  obtain ⟨t, s', h1, h2⟩ := returns_of_holds (x := noExts) (r := .if_stmt) (s := lineOf [Tag.KW_IF, Tag.TK_PARENL, Tag.TK_NAME, Tag.TK_PARENR,
    Tag.KW_IF, Tag.TK_PARENL, Tag.TK_NAME, Tag.TK_PARENR, Tag.KW_RETURN]) (q := fun t _ => t.isSome) 60 (by decide +kernel)
  cases t with
  | none => cases h2
  | some t => exact ⟨t, s', (dispatch_of (by decide +kernel)).mpr h1⟩

/-- `forall (i = a:b) x = y` and `where (m) x = y` are recognised. -/
example : Recognised noExts Tag.SG_FORALL_STMT (lineOf [Tag.KW_FORALL, Tag.TK_PARENL, Tag.TK_NAME, Tag.TK_EQUAL, Tag.TK_NAME, Tag.TK_COLON,
      Tag.TK_NAME, Tag.TK_PARENR, Tag.TK_NAME, Tag.TK_EQUAL, Tag.TK_NAME]) ∧
    Recognised noExts Tag.SG_WHERE_STMT (lineOf [Tag.KW_WHERE, Tag.TK_PARENL, Tag.TK_NAME, Tag.TK_PARENR, Tag.TK_NAME, Tag.TK_EQUAL, Tag.TK_NAME]) := by
  constructor
  · obtain ⟨t, s', h1, h2⟩ := returns_of_holds (x := noExts) (r := .forall_stmt) (s := lineOf [Tag.KW_FORALL, Tag.TK_PARENL, Tag.TK_NAME, Tag.TK_EQUAL,
      Tag.TK_NAME, Tag.TK_COLON, Tag.TK_NAME, Tag.TK_PARENR, Tag.TK_NAME, Tag.TK_EQUAL, Tag.TK_NAME]) (q := fun t _ => t.isSome) 60 (by decide +kernel)
    cases t with
    | none => cases h2
    | some t => exact ⟨t, s', (dispatch_of (by decide +kernel)).mpr h1⟩
  · obtain ⟨t, s', h1, h2⟩ := returns_of_holds (x := noExts) (r := .where_stmt) (s := lineOf [Tag.KW_WHERE, Tag.TK_PARENL, Tag.TK_NAME, Tag.TK_PARENR,
      Tag.TK_NAME, Tag.TK_EQUAL, Tag.TK_NAME]) (q := fun t _ => t.isSome) 60 (by decide +kernel)
    cases t with
    | none => cases h2
    | some t => exact ⟨t, s', (dispatch_of (by decide +kernel)).mpr h1⟩

/-- `if (a)` by itself: defined as no statement of the standard, and undefined here. -/
example : GoodStmt (lineOf [Tag.KW_IF, Tag.TK_PARENL, Tag.TK_NAME, Tag.TK_PARENR]) ∧
    Undefined noExts Tag.SG_IF_STMT (lineOf [Tag.KW_IF, Tag.TK_PARENL, Tag.TK_NAME, Tag.TK_PARENR]) := by
  constructor
  · refine good_of (goodTags_of (by decide +kernel)) (.plain ⟨by decide, by decide, by decide, by decide⟩ ?_)
    exact .paren (a := [Tag.TK_NAME]) (b := []) (.plain ⟨by decide, by decide, by decide, by decide⟩ .nil) .nil
  · exact (dispatch_of (r := .if_stmt) (by decide +kernel)).mpr (returns_ub 60 (by decide +kernel))

end SP
end FLPR
