import Verif.StmtParser.ParserSpec
import Verif.StmtParser.Static
import Verif.StmtParser.Mono
import Mathlib.Data.List.Induction
/-!
# C25, C26, C27, C52-C57: the statement parsers (src/flpr/parse_stmt.cc, Stmt_Parsers.hh)
-/

namespace FLPR
namespace SP
open Spec

theorem up_inj {α : Type} {a b : Res α} (h : up a = up b) : a = b := by
  cases a <;> cases b <;> simp_all [up]

theorem ne_fuel_up {α : Type} {r : PRes α} (h : r ≠ .error .fuel) : ∃ q : Res α, r = up q := by
  match r, h with
  | .ok a, _ => exact ⟨.ok a, rfl⟩
  | .error (.fail e), _ => exact ⟨.error e, rfl⟩
  | .error .fuel, h => exact absurd rfl h

/-- A result with some bound is the result. -/
theorem _root_.FLPR.Spec.Returns.of_eval {x : Exts} {r : R} {s : Strm} {res : Res (Option SNode × Strm)} (n : Nat)
    (h : evalRule R.body x n r s = up res) : Returns x r s res := by
  refine ⟨n, fun m hm => ?_⟩
  rcases evalRule_le R.body x hm r s with e | e
  · rw [h] at e; exact absurd e (up_ne_fuel _)
  · rw [← e, h]

theorem _root_.FLPR.Spec.Returns.eval {x : Exts} {r : R} {s : Strm} {res : Res (Option SNode × Strm)}
    (h : Returns x r s res) : ∃ n, evalRule R.body x n r s = up res := by
  obtain ⟨N, h⟩ := h
  exact ⟨N, h N (le_refl _)⟩

theorem _root_.FLPR.Spec.Returns.unique {x : Exts} {r : R} {s : Strm} {a b : Res (Option SNode × Strm)}
    (h1 : Returns x r s a) (h2 : Returns x r s b) : a = b := by
  obtain ⟨N, h1⟩ := h1
  obtain ⟨M, h2⟩ := h2
  have e1 := h1 (max N M) (by omega)
  have e2 := h2 (max N M) (by omega)
  exact up_inj (e1.symm.trans e2)

theorem dispatch_iff {x : Exts} {tag : Int} {s : Strm} {res : Res (Option SNode × Strm)} :
    DispatchReturns x tag s res ↔
      match dispatchTable.find? (fun q => q.1 == tag) with
      | some q => Returns x q.2 s res
      | none => res = .ok (none, s) := by
  rw [DispatchReturns]
  simp only [dispatch]
  cases dispatchTable.find? (fun q => q.1 == tag) with
  | some q => exact Iff.rfl
  | none =>
    constructor
    · rintro ⟨N, h⟩
      exact up_inj (h N (le_refl _)).symm
    · rintro rfl
      exact ⟨0, fun _ _ => rfl⟩

/-! ### C52: every call ends -/

/-- C52: a call of any rule function of the grammar on any token stream, at any position, ends - with
a tree, without one, or with a failure - and in one way only. -/
theorem C52_terminates (x : Exts) (hx : x.Forward) (r : R) (s : Strm) :
    ∃ res, Returns x r s res ∧ ∀ res', Returns x r s res' → res' = res := by
  obtain ⟨N, v, hv, h⟩ := evalRule_conv hx r s
  obtain ⟨res, rfl⟩ := ne_fuel_up hv
  exact ⟨res, ⟨N, h⟩, fun res' h' => h'.unique ⟨N, h⟩⟩

/-- C52 for `parse_stmt_dispatch`, with any tag. -/
theorem C52_dispatch (x : Exts) (hx : x.Forward) (tag : Int) (s : Strm) :
    ∃ res, DispatchReturns x tag s res ∧ ∀ res', DispatchReturns x tag s res' → res' = res := by
  simp only [dispatch_iff]
  cases dispatchTable.find? (fun q => q.1 == tag) with
  | some q => exact C52_terminates x hx q.2 s
  | none => exact ⟨_, rfl, fun _ h => h⟩

/-! ### C25: no match, no movement -/

/-- C25: in any grammar, with any extensions, a parser that does not match leaves the stream where it
was and has no tree, unless it is a negation of something that moves (`C25_violation_negation`): that
is what is missing. -/
theorem C25_term_partial (g : R → Body) (x : Exts) (n : Nat) (p : P) (s : Strm) (o : Out)
    (hp : p.restores = true) (h : eval g x n p s = .ok o) (hok : o.ok = false) : o.s = s ∧ o.tree = none :=
  eval_restores g x n p s o hp h hok

/-- C25 for the rule functions: all but `procedure_designator` leave the stream alone when they return
no tree. -/
theorem C25_function (x : Exts) (r : R) (s t : Strm) (hr : r ≠ .procedure_designator)
    (h : Returns x r s (.ok (none, t))) : t = s := by
  obtain ⟨n, h⟩ := h.eval
  exact evalRule_treeRestores (grammar_treeRestores r hr) h

/-- C25 for `parse_stmt_dispatch`. -/
theorem C25_dispatch (x : Exts) (tag : Int) (s t : Strm)
    (h : DispatchReturns x tag s (.ok (none, t))) : t = s := by
  rw [dispatch_iff] at h
  cases hq : dispatchTable.find? (fun q => q.1 == tag) with
  | some q =>
    rw [hq] at h
    refine C25_function x q.2 s t ?_ h
    have : dispatchTable.all (fun q => q.2 != .procedure_designator) = true := by decide +kernel
    simpa using List.all_eq_true.mp this q (List.mem_of_find?_eq_some hq)
  | none =>
    rw [hq] at h
    injection h with h
    injection h with _ h

/-- A test of the result of a call. -/
def holdsFor (w : PRes (Option SNode × Strm)) (q : Option SNode → Strm → Bool) : Bool :=
  match w with
  | .ok w => q w.1 w.2
  | .error _ => false

theorem returns_of_holds {x : Exts} {r : R} {s : Strm} {q : Option SNode → Strm → Bool} (n : Nat)
    (h : holdsFor (evalRule R.body x n r s) q = true) :
    ∃ t s', Returns x r s (.ok (t, s')) ∧ q t s' = true := by
  cases hw : evalRule R.body x n r s with
  | error e => rw [hw] at h; cases h
  | ok w =>
    rw [hw] at h
    exact ⟨w.1, w.2, .of_eval n hw, h⟩

/-- A stream at the beginning of a line with the given tags. -/
abbrev lineOf (ts : List Int) : Strm := Strm.mk' (ts.map tokOf) 0 ts.length

/-- C25 fails for a negation: `neg(TOK(TK_COMMA))` on a comma does not match and has taken it. -/
theorem C25_violation_negation : ∃ o, eval R.body noExts 2 (.neg (.tok Tag.TK_COMMA)) (lineOf [Tag.TK_COMMA]) = .ok o ∧
    o.ok = false ∧ o.s ≠ lineOf [Tag.TK_COMMA] := by
  refine ⟨_, rfl, rfl, ?_⟩
  decide

/-- C25 fails for `procedure_designator`, called by itself: no tree, and the stream is at its end. -/
theorem C25_violation_designator :
    Returns noExts .procedure_designator (lineOf [Tag.TK_EQUAL, Tag.TK_NAME])
      (.ok (none, (lineOf [Tag.TK_EQUAL, Tag.TK_NAME]).goto 2)) := by
  obtain ⟨t, s', h1, h2⟩ := returns_of_holds (x := noExts) (r := .procedure_designator)
    (s := lineOf [Tag.TK_EQUAL, Tag.TK_NAME])
    (q := fun t s' => t.isNone && s' == (lineOf [Tag.TK_EQUAL, Tag.TK_NAME]).goto 2) 20 (by decide +kernel)
  simp only [Bool.and_eq_true, Option.isNone_iff_eq_none, beq_iff_eq] at h2
  rw [h2.1, h2.2] at h1
  exact h1

/-! ### C26: trees cover what was taken -/

theorem returns_safe {x : Exts} (hx : GoodExts x) {r : R} {s : Strm} (hs : GoodStmt s)
    {res : Res (Option SNode × Strm)} (h : Returns x r s res) :
    Safe (Risk (R.designates.contains r) s) (up res)
      (fun w => ∀ n, w.1 = some n → PostAt s s.pos w.1 w.2) := by
  obtain ⟨n, h⟩ := h.eval
  rw [← h]
  refine (runBody_safe (u := fun r => R.designates.contains r)
    (eval_safe hx grammar_good grammar_calls n) hx hs (grammar_good r)).weaken ?_
  exact fun e => ⟨e.1, grammar_calls r e.2⟩

/-- C26: when a rule function matches on a statement with properly nested parentheses and brackets, the
tokens from where the stream was to where it is left are those of the tree: the root has just that
range, every inner node covers its branches one after the other, and every token is one leaf.
Missing: statements with unbalanced parentheses, where it is false (`C26_violation_overrun`). -/
theorem C26_covers_partial (x : Exts) (hx : GoodExts x) (r : R) (s t : Strm) (n : SNode)
    (hs : GoodStmt s) (h : Returns x r s (.ok (some n, t))) :
    s.pos ≤ t.pos ∧ t.pos ≤ s.hi ∧ t = s.goto t.pos ∧ Covers (tagsOf s) n s.pos t.pos := by
  have h1 := returns_safe hx hs h
  obtain ⟨q, e1, e2, e3, e4⟩ := h1 n rfl
  have e1 : t = s.goto q := e1
  subst e1
  exact ⟨e2, e3, rfl, e4⟩

/-- C26 for `parse_stmt_dispatch`, on the same statements. -/
theorem C26_dispatch_partial (x : Exts) (hx : GoodExts x) (tag : Int) (s t : Strm) (n : SNode)
    (hs : GoodStmt s) (h : DispatchReturns x tag s (.ok (some n, t))) :
    s.pos ≤ t.pos ∧ t.pos ≤ s.hi ∧ t = s.goto t.pos ∧ Covers (tagsOf s) n s.pos t.pos := by
  rw [dispatch_iff] at h
  cases hq : dispatchTable.find? (fun q => q.1 == tag) with
  | some q => rw [hq] at h; exact C26_covers_partial x hx q.2 s t n hs h
  | none => rw [hq] at h; cases h

/-- The line `x=(a;b)`. -/
def semiLine : List Int :=
  [Tag.TK_NAME, Tag.TK_EQUAL, Tag.TK_PARENL, Tag.TK_NAME, Tag.TK_SEMICOLON, Tag.TK_NAME, Tag.TK_PARENR]

/-- C26 fails without balanced parentheses: on the first statement of the line `x=(a;b)`, the tokens
`x=(a`, `assignment_stmt` matches with a tree over all seven tokens of the line. -/
theorem C26_violation_overrun :
    ∃ n t, Returns noExts .assignment_stmt (Strm.mk' (semiLine.map tokOf) 0 4) (.ok (some n, t)) ∧
      t.pos = 7 ∧ n.range = some (0, 7) := by
  obtain ⟨t, s', h1, h2⟩ := returns_of_holds (x := noExts) (r := .assignment_stmt)
    (s := Strm.mk' (semiLine.map tokOf) 0 4)
    (q := fun t s' => s'.pos == 7 && t.any (fun n => n.range == some (0, 7))) 30 (by decide +kernel)
  simp only [Bool.and_eq_true, Option.any_eq_true, beq_iff_eq] at h2
  obtain ⟨h2, n, rfl, h3⟩ := h2
  exact ⟨n, s', h1, h2, h3⟩

/-! ### C27: extensions -/

/-- What a call of the registry does to what is registered. -/
def applyOp (x : Exts) : ExtOp → Exts
  | .action e => x.registerAction e
  | .other e => x.registerOther e
  | .clear => x.clear

theorem sinceClear_snoc (ops : List ExtOp) (op : ExtOp) :
    sinceClear (ops ++ [op]) = match op with | .clear => [] | op => sinceClear ops ++ [op] := by
  cases op <;> simp [sinceClear]

theorem history (ops : List ExtOp) : ops.foldl applyOp noExts =
    ⟨actionsOf (sinceClear ops), othersOf (sinceClear ops)⟩ := by
  induction ops using List.reverseRecOn with
  | nil => rfl
  | append_singleton ops op ih =>
    rw [List.foldl_append, List.foldl_cons, List.foldl_nil, ih, sinceClear_snoc]
    cases op with
    | action e => simp [applyOp, Exts.registerAction, actionsOf, othersOf]
    | other e => simp [applyOp, Exts.registerOther, actionsOf, othersOf]
    | clear => rfl

theorem extLoop_noMatch {tag : Int} {s : Strm} : ∀ es, NoMatch es s →
    extLoop tag s.pos es s = .ok (none, s) := by
  intro es
  induction es with
  | nil => intro _; rfl
  | cons e es ih =>
    intro h
    obtain ⟨q, hq⟩ := h e (by simp)
    rw [extLoop, hq, Res.ok_bind]
    simp only [Strm.goto_goto, Strm.goto_self]
    exact ih (fun e he => h e (by simp [he]))

theorem extLoop_first {tag : Int} {s : Strm} {t : SNode} {q : Nat} {es : List Ext}
    (h : FirstMatch es s t q) :
    extLoop tag s.pos es s = (do
      let n ← coverBranches (hoistBack (.node tag t.range []) (some t))
      .ok (some n, s.goto q)) := by
  obtain ⟨pre, e, post, rfl, h1, h2⟩ := h
  induction pre with
  | nil => rw [List.nil_append, extLoop, h2, Res.ok_bind]
  | cons e' pre ih =>
    obtain ⟨q', hq⟩ := h1 e' (by simp)
    rw [List.cons_append, extLoop, hq, Res.ok_bind]
    simp only [Strm.goto_goto, Strm.goto_self]
    exact ih (fun e he => h1 e (by simp [he]))

/-- C27: after any history of registrations, `parse_action_stmt` (`action`) and
`parse_other_specification_stmt` call the parsers registered since the last `clear` in the order of
their registration, each with the stream where it was, up to the first that matches.  When there is
one the stream is left where that one left it and the tree has a new root over the tree it returned;
when there is none, the stream is where it was. -/
theorem C27_order (ops : List ExtOp) (action : Bool) (s : Strm) :
    let x := ops.foldl applyOp noExts
    let es := if action then actionsOf (sinceClear ops) else othersOf (sinceClear ops)
    (NoMatch es s → runExts x action s = .ok (none, s)) ∧
    (∀ t q, FirstMatch es s t q → GoodStmt s → Covers (tagsOf s) t s.pos q →
      ∃ n, runExts x action s = .ok (some n, s.goto q) ∧
        n.tag = (if action then Tag.SG_ACTION_STMT else Tag.SG_OTHER_SPECIFICATION_STMT) ∧
        n.kids = (if t.tag = Tag.HOIST then t.kids else [t]) ∧ Covers (tagsOf s) n s.pos q) := by
  intro x es
  have hx : x = ⟨actionsOf (sinceClear ops), othersOf (sinceClear ops)⟩ := history ops
  have hrun : ∀ tag, tag = (if action then Tag.SG_ACTION_STMT else Tag.SG_OTHER_SPECIFICATION_STMT) →
      runExts x action s = extLoop tag s.pos es s := by
    intro tag ht
    rw [runExts, hx, ht]
    cases action <;> rfl
  refine ⟨fun h => ?_, fun t q h hs hc => ?_⟩
  · rw [hrun _ rfl]; exact extLoop_noMatch _ h
  · rw [hrun _ rfl, extLoop_first h]
    generalize (if action then Tag.SG_ACTION_STMT else Tag.SG_OTHER_SPECIFICATION_STMT) = tag
    obtain ⟨ks', hk, hca⟩ := hoist_covers (t := tag) (r := t.range) hs.tags (ks := []) (b := s.pos)
      (tree := some t) (by rw [CoversAll]) hc
    obtain ⟨r', he, hcv⟩ := cover_ok (t := tag) (r := t.range) hca
      (fun e => (rangeIs_empty (covers_range hc)).mpr e)
    rw [hk, he]
    refine ⟨_, rfl, rfl, ?_, hcv⟩
    cases t with
    | node tt tr tks =>
      rw [hoistBack] at hk
      split at hk
      · next h1 => simp only [SNode.tag, h1, if_true, SNode.kids]; injection hk with _ _ hk; simpa using hk.symm
      · next h1 => simp only [SNode.tag, h1, if_false, SNode.kids]; injection hk with _ _ hk; simpa using hk.symm

/-- C27: `action_stmt` and `other_specification_stmt` try the extensions only after what is built in,
and on the stream as it was. -/
theorem C27_after_builtin (x : Exts) (n : Nat) (s : Strm) (o : Out) :
    (∀ p, R.body .action_stmt = .withExts true p → eval R.body x n p s = .ok o →
      evalRule R.body x n .action_stmt s =
        if o.ok then .ok (o.tree, o.s) else up (runExts x true s)) ∧
    (∀ p, R.body .other_specification_stmt = .withExts false p → eval R.body x n p s = .ok o →
      evalRule R.body x n .other_specification_stmt s =
        if o.ok then .ok (o.tree, o.s) else up (runExts x false s)) := by
  have key : ∀ a p r, R.body r = .withExts a p → eval R.body x n p s = .ok o →
      evalRule R.body x n r s = if o.ok then .ok (o.tree, o.s) else up (runExts x a s) := by
    intro a p r hb h
    have hg := grammar_good r
    rw [hb, Body.good, Bool.and_eq_true] at hg
    rw [evalRule, hb, runBody, h, PRes.ok_bind]
    cases hk : o.ok with
    | true => rfl
    | false => rw [(eval_restores _ x n p s o hg.2 h hk).1]
  exact ⟨fun p => key true p _, fun p => key false p _⟩

/-! ### C53: a match is a match of the whole statement -/

theorem peek_bad_end {s : Strm} (h : GoodStmt s) (hp : s.peek = .ok Tag.BAD) : s.pos = s.hi := by
  rcases peek_good h with ⟨e, _⟩ | ⟨t, _, _, h1, h2⟩
  · exact e
  · rw [h1] at hp
    injection hp with hp
    exact absurd hp h2.2.1

/-- C53: when `parse_stmt_dispatch` matches, no token of the statement is left over, for every tag but
those of `import_stmt`, `interface_stmt` and `loop_control`.  Missing: the first two, where it is false
(`C53_violation_*`); the third is not a statement. -/
theorem C53_whole_partial (x : Exts) (hx : GoodExts x) (he : x.End) (tag : Int) (s t : Strm) (n : SNode)
    (hs : GoodStmt s) (h1 : tag ≠ Tag.SG_IMPORT_STMT) (h2 : tag ≠ Tag.SG_INTERFACE_STMT)
    (h3 : tag ≠ Tag.SG_LOOP_CONTROL) (h : DispatchReturns x tag s (.ok (some n, t))) : t.pos = s.hi := by
  obtain ⟨a1, a2, a3, _⟩ := C26_dispatch_partial x hx tag s t n hs h
  rw [dispatch_iff] at h
  cases hq : dispatchTable.find? (fun q => q.1 == tag) with
  | some q =>
    rw [hq] at h
    obtain ⟨m, h⟩ := h.eval
    have hmem := List.mem_of_find?_eq_some hq
    have htag : q.1 = tag := by simpa using List.find?_some hq
    have hall : dispatchTable.all (fun q => q.2.endsStmt || q.1 == Tag.SG_IMPORT_STMT ||
        q.1 == Tag.SG_INTERFACE_STMT || q.1 == Tag.SG_LOOP_CONTROL) = true := by decide +kernel
    have hr := List.all_eq_true.mp hall q hmem
    rw [htag] at hr
    simp only [Bool.or_eq_true, beq_iff_eq, h1, h2, h3, or_false] at hr
    have hp : t.peek = .ok Tag.BAD :=
      runBody_ends he (eval_ends' he grammar_ends m) (eval_restores _ x m) (grammar_ends _ hr) h rfl
    rw [a3] at hp
    have hs' := GoodStmt_goto hs (q := t.pos) (le_trans hs.lo_pos a1) a2
    exact peek_bad_end hs' hp
  | none => rw [hq] at h; cases h

/-- C53 fails for `interface_stmt`: it matches the empty statement, and `abstract interface foo` with
`foo` left over. -/
theorem C53_violation_interface :
    (∃ n t, Returns noExts .interface_stmt (lineOf []) (.ok (some n, t))) ∧
    ∃ n t, Returns noExts .interface_stmt (lineOf [Tag.KW_ABSTRACT, Tag.KW_INTERFACE, Tag.TK_NAME])
      (.ok (some n, t)) ∧ t.pos = 2 := by
  constructor
  · obtain ⟨t, s', h1, h2⟩ := returns_of_holds (x := noExts) (r := .interface_stmt)
      (s := lineOf []) (q := fun t _ => t.isSome) 20 (by decide +kernel)
    obtain ⟨n, rfl⟩ := Option.isSome_iff_exists.mp h2
    exact ⟨n, s', h1⟩
  · obtain ⟨t, s', h1, h2⟩ := returns_of_holds (x := noExts) (r := .interface_stmt)
      (s := lineOf [Tag.KW_ABSTRACT, Tag.KW_INTERFACE, Tag.TK_NAME])
      (q := fun t s' => t.isSome && s'.pos == 2) 20 (by decide +kernel)
    simp only [Bool.and_eq_true, beq_iff_eq] at h2
    obtain ⟨n, rfl⟩ := Option.isSome_iff_exists.mp h2.1
    exact ⟨n, s', h1, h2.2⟩

/-- C53 fails for `import_stmt`: `import, none foo` matches with `foo` left over. -/
theorem C53_violation_import :
    ∃ n t, Returns noExts .import_stmt (lineOf [Tag.KW_IMPORT, Tag.TK_COMMA, Tag.KW_NONE, Tag.TK_NAME])
      (.ok (some n, t)) ∧ t.pos = 3 := by
  obtain ⟨t, s', h1, h2⟩ := returns_of_holds (x := noExts) (r := .import_stmt)
    (s := lineOf [Tag.KW_IMPORT, Tag.TK_COMMA, Tag.KW_NONE, Tag.TK_NAME])
    (q := fun t s' => t.isSome && s'.pos == 3) 20 (by decide +kernel)
  simp only [Bool.and_eq_true, beq_iff_eq] at h2
  obtain ⟨n, rfl⟩ := Option.isSome_iff_exists.mp h2.1
  exact ⟨n, s', h1, h2.2⟩

/-! ### C54: the tag of the tree is the tag asked for -/

/-- C54: a tree returned by `parse_stmt_dispatch(tag, ts)` has `tag` at its root, for every tag but
`SG_SYNC_IMAGES_STMT` (`C54_violation`), on every stream whatsoever. -/
theorem C54_tag_partial (x : Exts) (tag : Int) (s t : Strm) (n : SNode)
    (h1 : tag ≠ Tag.SG_SYNC_IMAGES_STMT) (h : DispatchReturns x tag s (.ok (some n, t))) : n.tag = tag := by
  rw [dispatch_iff] at h
  cases hq : dispatchTable.find? (fun q => q.1 == tag) with
  | some q =>
    rw [hq] at h
    obtain ⟨m, h⟩ := h.eval
    have hmem := List.mem_of_find?_eq_some hq
    have htag : q.1 = tag := by simpa using List.find?_some hq
    have hall : dispatchTable.all (fun q => q.2.rootTag == q.1 || q.1 == Tag.SG_SYNC_IMAGES_STMT) = true := by
      decide +kernel
    have hr := List.all_eq_true.mp hall q hmem
    rw [htag] at hr
    simp only [Bool.or_eq_true, beq_iff_eq, h1, or_false] at hr
    rw [← hr]
    exact runBody_tag (eval_tag (x := x) grammar_rootTag m) (grammar_rootTag q.2) h rfl
  | none => rw [hq] at h; cases h

/-- The statement `sync images (a)`. -/
def syncImages : Strm := lineOf [Tag.KW_SYNC, Tag.KW_IMAGES, Tag.TK_PARENL, Tag.TK_NAME, Tag.TK_PARENR]

/-- C54 fails for `SG_SYNC_IMAGES_STMT`: the tree is tagged `SG_SYNC_ALL_STMT`. -/
theorem C54_violation : ∃ n t, DispatchReturns noExts Tag.SG_SYNC_IMAGES_STMT syncImages (.ok (some n, t)) ∧
    n.tag = Tag.SG_SYNC_ALL_STMT ∧ n.tag ≠ Tag.SG_SYNC_IMAGES_STMT := by
  obtain ⟨t, s', h1, h2⟩ := returns_of_holds (x := noExts) (r := .sync_images_stmt)
    (s := syncImages) (q := fun t _ => t.any (fun n => n.tag == Tag.SG_SYNC_ALL_STMT)) 30 (by decide +kernel)
  simp only [Option.any_eq_true, beq_iff_eq] at h2
  obtain ⟨n, rfl, h2⟩ := h2
  refine ⟨n, s', ?_, h2, by rw [h2]; decide⟩
  rw [dispatch_iff]
  exact h1

/-! ### C55: no undefined behaviour -/

/-- C55: on a statement with properly nested parentheses and brackets a rule function returns, without
undefined behaviour, exception or failed assertion - unless the statement ends in ')' and the rule is
one that calls `procedure_designator`.  Missing: those, where it is false (`C55_violation_allocate`). -/
theorem C55_defined_partial (x : Exts) (hx : GoodExts x) (r : R) (s : Strm) (hs : GoodStmt s)
    (hr : r ∉ R.designates ∨ ¬ EndsInParen s) (res : Res (Option SNode × Strm)) (h : Returns x r s res) :
    ∃ w, res = .ok w := by
  have h1 := returns_safe hx hs h
  cases res with
  | ok w => exact ⟨w, rfl⟩
  | error e =>
    obtain ⟨_, h2, h3⟩ := h1
    rcases hr with hr | hr
    · exact absurd (by simpa using h3) hr
    · exact absurd h2 hr

/-- C55, what remains: on a statement with properly nested parentheses and brackets nothing worse than
the undefined behaviour of `procedure_designator` can happen. -/
theorem C55_only_ub (x : Exts) (hx : GoodExts x) (r : R) (s : Strm) (hs : GoodStmt s)
    (res : Res (Option SNode × Strm)) (h : Returns x r s res) :
    (∃ w, res = .ok w) ∨ (res = .error .ub ∧ r ∈ R.designates ∧ EndsInParen s) := by
  have h1 := returns_safe hx hs h
  cases res with
  | ok w => exact .inl ⟨w, rfl⟩
  | error e =>
    obtain ⟨rfl, h2, h3⟩ := h1
    exact .inr ⟨rfl, by simpa using h3, h2⟩

/-- A test for undefined behaviour. -/
def isUB (w : PRes (Option SNode × Strm)) : Bool :=
  match w with
  | .error (.fail .ub) => true
  | _ => false

theorem returns_ub {x : Exts} {r : R} {s : Strm} (n : Nat) (h : isUB (evalRule R.body x n r s) = true) :
    Returns x r s (.error .ub) := by
  refine .of_eval n ?_
  match hw : evalRule R.body x n r s with
  | .ok w => rw [hw] at h; cases h
  | .error .fuel => rw [hw] at h; cases h
  | .error (.fail .ub) => rfl
  | .error (.fail .exc) => rw [hw] at h; cases h
  | .error (.fail .assertion) => rw [hw] at h; cases h

/-- The statement `allocate(x, stat=ierr)`. -/
def allocateStmt : Strm :=
  lineOf [Tag.KW_ALLOCATE, Tag.TK_PARENL, Tag.TK_NAME, Tag.TK_COMMA, Tag.KW_STAT, Tag.TK_EQUAL,
    Tag.TK_NAME, Tag.TK_PARENR]

/-- C55 fails for `allocate(x, stat=ierr)`: while it is looking for an `allocate-object`, the parser
asks `procedure_designator` at `x` for the range of tokens that ends before the last '(', which is
before `x`. -/
theorem C55_violation_allocate : Returns noExts .allocate_stmt allocateStmt (.error .ub) :=
  returns_ub 40 (by decide +kernel)

/-- Without balanced parentheses C55 fails for simple statements: `x=(a`. -/
theorem C55_violation_unbalanced :
    Returns noExts .assignment_stmt (lineOf [Tag.TK_NAME, Tag.TK_EQUAL, Tag.TK_PARENL, Tag.TK_NAME])
      (.error .ub) :=
  returns_ub 40 (by decide +kernel)

/-! ### C56: is_action_stmt -/

/-- The alternatives of `action_stmt`. -/
def actionAlts : List R :=
  match R.body .action_stmt with
  | .withExts _ (.alts _ ps) => ps.filterMap (fun p => match p with | .rule r => some r | _ => none)
  | _ => []

theorem action_body : R.body .action_stmt =
    .withExts true (.alts Tag.SG_ACTION_STMT (actionAlts.map .rule)) := by rfl

/-- C56: `is_action_stmt` says yes to exactly the tags that `parse_stmt_dispatch` gives to an
alternative of `action_stmt`. -/
theorem C56_action_tags (tag : Int) : isActionStmt tag = true ↔
    ∃ r ∈ actionAlts, (tag, r) ∈ dispatchTable := by
  constructor
  · intro h
    have hm : tag ∈ actionTags := by rw [isActionStmt] at h; simpa using h
    have hall : actionTags.all (fun t => actionAlts.any (fun r => dispatchTable.contains (t, r))) = true := by
      decide +kernel
    have := List.all_eq_true.mp hall tag hm
    obtain ⟨r, h1, h2⟩ := List.any_eq_true.mp this
    exact ⟨r, h1, by simpa using h2⟩
  · rintro ⟨r, h1, h2⟩
    have hall : dispatchTable.all (fun q => !actionAlts.contains q.2 || isActionStmt q.1) = true := by
      decide +kernel
    have := List.all_eq_true.mp hall _ h2
    simpa [h1] using this

theorem altsLoop_rules {g : R → Body} {x : Exts} {n : Nat} : ∀ (rs : List R) s o,
    altsLoop (eval g x n) (rs.map .rule) s = .ok o → o.ok = true →
    ∃ r ∈ rs, ∃ s0, eval g x n (.rule r) s0 = .ok o := by
  intro rs
  induction rs with
  | nil => intro s o h ho; rw [List.map_nil, altsLoop] at h; injection h with h; subst h; cases ho
  | cons r rs ih =>
    intro s o h ho
    rw [List.map_cons, altsLoop] at h
    pbind h with o1 h1
    split at h
    · injection h with h; subst h; exact ⟨r, by simp, s, h1⟩
    · obtain ⟨r', h2, h3⟩ := ih _ _ h ho
      exact ⟨r', by simp [h2], h3⟩

/-- C56: whatever `action_stmt` matches without extensions is one statement below the root, and
`is_action_stmt` says yes to its tag. -/
theorem C56_action_tree (s t : Strm) (n : SNode) (h : Returns noExts .action_stmt s (.ok (some n, t))) :
    n.tag = Tag.SG_ACTION_STMT ∧ ∃ k, n.kids = [k] ∧ isActionStmt k.tag = true := by
  obtain ⟨m, h⟩ := h.eval
  refine ⟨?_, ?_⟩
  · have := runBody_tag (eval_tag (x := noExts) grammar_rootTag m) (grammar_rootTag .action_stmt) h rfl
    rw [this]; decide +kernel
  · rw [evalRule, action_body, runBody] at h
    pbind h with o ho
    split at h
    · next hk =>
      injection h with h
      injection h with h1 h2
      cases m with
      | zero => cases ho
      | succ m =>
      rw [eval, step] at ho
      pbind ho with o1 ho1
      split at ho
      · next hk1 =>
        pbind ho with c hc
        injection ho with ho; subst ho
        injection h1 with h1; subst h1
        obtain ⟨r, hr, s0, hrun⟩ := altsLoop_rules _ _ _ ho1 hk1
        have hc := up_ok hc
        cases htree : o1.tree with
        | none =>
          cases m with
          | zero => cases hrun
          | succ m =>
          rw [eval, step] at hrun
          pbind hrun with w hw
          split at hrun
          · injection hrun with hrun; subst hrun; cases hk1
          · injection hrun with hrun; subst hrun; cases htree
        | some k =>
          have hkt : k.tag = r.rootTag :=
            eval_tag (x := noExts) grammar_rootTag m (.rule r) s0 o1 k r.rootTag rfl hrun htree
          have hall : actionAlts.all (fun r => isActionStmt r.rootTag) = true := by decide +kernel
          have hact := List.all_eq_true.mp hall r hr
          have hne : k.tag ≠ Tag.HOIST := by
            rw [hkt]
            intro e
            have e : R.rootTag r = Tag.HOIST := e
            simp only [e] at hact
            exact absurd hact (by decide +kernel)
          refine ⟨k, ?_, by rw [hkt]; exact hact⟩
          rw [htree] at hc
          cases k with
          | node kt kr kks =>
            rw [hoistBack, if_neg (show kt ≠ Tag.HOIST from hne), coverBranches] at hc
            split at hc
            · injection hc with hc; rw [← hc]; rfl
            · rbind hc with r' hr'
              injection hc with hc; rw [← hc]; rfl
      · next hk1 => injection ho with ho; subst ho; exact absurd hk hk1
    · have h := up_ok h
      simp [runExts, noExts, extLoop] at h

/-! ### C57: submodule statements -/

theorem seqLoop_suffix {f : P → Strm → PRes Out} : ∀ a b s acc w, seqLoop f (a ++ b) s acc = .ok w →
    w.2.1 = true → (∀ p s o, f p s = .ok o → Frame s o.s) →
    ∃ s' acc', Frame s s' ∧ seqLoop f b s' acc' = .ok w := by
  intro a
  induction a with
  | nil => intro b s acc w h _ _; exact ⟨s, acc, .refl s, h⟩
  | cons p a ih =>
    intro b s acc w h hw hf
    rw [List.cons_append, seqLoop] at h
    pbind h with o ho
    split at h
    · obtain ⟨s', acc', h1, h2⟩ := ih b _ _ _ h hw hf
      exact ⟨s', acc', (hf _ _ _ ho).trans h1, h2⟩
    · injection h with h; subst h; cases hw

/-- The parser of `submodule_stmt` up to the closing parenthesis. -/
def submoduleHead : List P :=
  match R.body .submodule_stmt with
  | .comb (.seq _ ps) => ps.take 4
  | _ => []

theorem submodule_body : R.body .submodule_stmt =
    .comb (.seq Tag.SG_SUBMODULE_STMT (submoduleHead ++ [.tok Tag.TK_PARENR, .peek Tag.BAD])) := by rfl

/-- C57 fails: the standard (R1417) wants `submodule (parent) name`, and no statement that has anything
behind the last ')' is matched by `submodule_stmt`. -/
theorem C57_violation_submodule (x : Exts) (hx : GoodExts x) (he : x.End) (s : Strm) (hs : GoodStmt s)
    (hn : (tagsOf s)[s.hi - 1]? ≠ some Tag.TK_PARENR) (res : Res (Option SNode × Strm))
    (h : DispatchReturns x Tag.SG_SUBMODULE_STMT s res) : res = .ok (none, s) := by
  have hd := h
  rw [dispatch_iff] at h
  have h : Returns x .submodule_stmt s res := h
  obtain ⟨w, rfl⟩ := C55_defined_partial x hx .submodule_stmt s hs (.inl (by decide)) res h
  obtain ⟨tree, t⟩ := w
  cases tree with
  | none => rw [C25_dispatch x _ s t hd]
  | some n =>
    exfalso
    have hend : t.pos = s.hi := C53_whole_partial x hx he Tag.SG_SUBMODULE_STMT s t n hs (by decide)
      (by decide) (by decide) hd
    obtain ⟨m, h⟩ := h.eval
    rw [evalRule, submodule_body, runBody] at h
    pbind h with o ho
    injection h with h
    injection h with h1 h2
    cases m with
    | zero => cases ho
    | succ m =>
    rw [eval, step] at ho
    pbind ho with w hw
    split at ho
    · next hk =>
      pbind ho with c hc
      injection ho with ho; subst ho
      obtain ⟨s', acc', hfr, hlast⟩ := seqLoop_suffix _ _ _ _ _ hw hk (fun p s o h => eval_frame h)
      rw [seqLoop] at hlast
      pbind hlast with o1 ho1
      split at hlast
      · next hk1 =>
        rw [seqLoop] at hlast
        pbind hlast with o2 ho2
        have ho2s : o2.s = o1.s := by
          cases m with
          | zero => cases ho2
          | succ m =>
            rw [eval, step] at ho2
            exact (runPeek_out (up_ok ho2)).1
        have hws : w.2.2 = o1.s := by
          split at hlast
          · rw [seqLoop] at hlast
            injection hlast with hlast; subst hlast; exact ho2s
          · injection hlast with hlast; subst hlast; exact ho2s
        cases m with
        | zero => cases ho1
        | succ m =>
        rw [eval, step] at ho1
        have ho1 := up_ok ho1
        have hp : o1.s.pos ≠ s'.pos := by
          have := ((runTok_out ho1).took hk1).1
          omega
        obtain ⟨e1, e2⟩ := runTok_spec ho1 (by decide) hp
        apply hn
        have hpos : s.hi - 1 = s'.pos := by
          have : t.pos = s'.pos + 1 := by
            rw [← h2]
            show w.2.2.pos = _
            rw [hws, e1]; rfl
          omega
        rw [hpos, ← e2, tagsOf, tagsOf, hfr.1]
      · injection hlast with hlast; subst hlast; cases hk
    · injection ho with ho; subst ho; cases h1

/-! ### Examples -/

theorem goodExts_none : GoodExts noExts := by intro e he; simp [noExts] at he

theorem ends_none : noExts.End := by intro e he; simp [noExts] at he

theorem forward_none : noExts.Forward := by intro e he; simp [noExts] at he

/-- `call x%y(a, b)` -/
def callStmt : List Int :=
  [Tag.KW_CALL, Tag.TK_NAME, Tag.TK_PERCENT, Tag.TK_NAME, Tag.TK_PARENL, Tag.TK_NAME, Tag.TK_COMMA,
   Tag.TK_NAME, Tag.TK_PARENR]

theorem lexerTag_of {t : Int} (h : (match Registry.isName t with | .ok _ => true | _ => false) = true)
    (h1 : t ≠ Tag.BAD) (h2 : t ≠ Tag.HOIST) : LexerTag t := by
  refine ⟨?_, h1, h2⟩
  cases hn : Registry.isName t with
  | ok b => exact ⟨b, rfl⟩
  | error e => rw [hn] at h; cases h

theorem good_of {ts : List Int} (h1 : ∀ t ∈ ts, LexerTag t) (h2 : WellNested ts) : GoodStmt (lineOf ts) := by
  have ht : tagsOf (lineOf ts) = ts := by
    show (ts.map tokOf).map (·.token) = ts
    rw [List.map_map]
    exact List.map_id' ts
  refine ⟨le_refl _, Nat.zero_le _, by simp [Strm.mk'], ?_, 0, le_refl _, ?_⟩
  · rw [ht]; exact h1
  · rw [ht]
    show WellNested ((ts.drop 0).take (ts.length - 0))
    simpa using h2

theorem goodTags_of {ts : List Int}
    (h : ts.all (fun t => (match Registry.isName t with | .ok _ => true | _ => false) &&
      t != Tag.BAD && t != Tag.HOIST) = true) : ∀ t ∈ ts, LexerTag t := by
  intro t ht
  have := List.all_eq_true.mp h t ht
  simp only [Bool.and_eq_true, bne_iff_ne, ne_eq] at this
  exact lexerTag_of this.1.1 this.1.2 this.2

theorem callStmt_good : GoodStmt (lineOf callStmt) := by
  refine good_of (goodTags_of (by decide +kernel)) ?_
  refine .plain ⟨by decide, by decide, by decide, by decide⟩ <| .plain ⟨by decide, by decide, by decide, by decide⟩ <|
    .plain ⟨by decide, by decide, by decide, by decide⟩ <| .plain ⟨by decide, by decide, by decide, by decide⟩ ?_
  exact .paren (a := [Tag.TK_NAME, Tag.TK_COMMA, Tag.TK_NAME]) (b := [])
    (.plain ⟨by decide, by decide, by decide, by decide⟩ <| .plain ⟨by decide, by decide, by decide, by decide⟩ <|
      .plain ⟨by decide, by decide, by decide, by decide⟩ .nil) .nil

/-- C26, C52-C55 apply to `call x%y(a, b)`, which is matched to its end. -/
example : ∃ n t, DispatchReturns noExts Tag.SG_CALL_STMT (lineOf callStmt) (.ok (some n, t)) ∧
    n.tag = Tag.SG_CALL_STMT ∧ t.pos = 9 ∧ Covers callStmt n 0 9 := by
  obtain ⟨t, s', h1, h2⟩ := returns_of_holds (x := noExts) (r := .call_stmt)
    (s := lineOf callStmt) (q := fun t _ => t.isSome) 40 (by decide +kernel)
  obtain ⟨n, rfl⟩ := Option.isSome_iff_exists.mp h2
  have hd : DispatchReturns noExts Tag.SG_CALL_STMT (lineOf callStmt) (.ok (some n, s')) := by
    rw [dispatch_iff]; exact h1
  have e1 := C53_whole_partial _ goodExts_none ends_none _ _ _ _ callStmt_good (by decide) (by decide)
    (by decide) hd
  have e2 := C26_dispatch_partial _ goodExts_none _ _ _ _ callStmt_good hd
  have e1 : s'.pos = 9 := e1
  refine ⟨n, s', hd, C54_tag_partial _ _ _ _ _ (by decide) hd, e1, ?_⟩
  rw [e1] at e2
  exact e2.2.2.2

/-- C25 applies to a statement that is not matched after tokens have been taken. -/
example : ∃ t, DispatchReturns noExts Tag.SG_CALL_STMT (lineOf [Tag.KW_CALL, Tag.TK_EQUAL]) (.ok (none, t)) := by
  obtain ⟨t, s', h1, h2⟩ := returns_of_holds (x := noExts) (r := .call_stmt)
    (s := lineOf [Tag.KW_CALL, Tag.TK_EQUAL]) (q := fun t _ => t.isNone) 40 (by decide +kernel)
  refine ⟨s', ?_⟩
  rw [dispatch_iff]
  rw [Option.isNone_iff_eq_none] at h2
  rw [← h2]
  exact h1

/-- C27 applies: the second of two extensions matches, after the first has moved the stream. -/
example : let e1 : Ext := fun s => .ok (none, s.pos + 1)
    let e2 : Ext := fun s => .ok (some (.node 7 (some (s.pos, s.pos + 1)) []), s.pos + 1)
    FirstMatch (actionsOf (sinceClear [.action e2, .clear, .action e1, .other e2, .action e2]))
      (lineOf [Tag.TK_NAME]) (.node 7 (some (0, 1)) []) 1 := by
  intro e1 e2
  exact ⟨[e1], e2, [], rfl, by simp [e1], rfl⟩

/-- C56 applies to `call x%y(a, b)`. -/
example : ∃ n t, Returns noExts .action_stmt (lineOf callStmt) (.ok (some n, t)) := by
  obtain ⟨t, s', h1, h2⟩ := returns_of_holds (x := noExts) (r := .action_stmt)
    (s := lineOf callStmt) (q := fun t _ => t.isSome) 60 (by decide +kernel)
  obtain ⟨n, rfl⟩ := Option.isSome_iff_exists.mp h2
  exact ⟨n, s', h1⟩

/-- C57 applies to `submodule (a) b`. -/
example : GoodStmt (lineOf [Tag.KW_SUBMODULE, Tag.TK_PARENL, Tag.TK_NAME, Tag.TK_PARENR, Tag.TK_NAME]) := by
  refine good_of (goodTags_of (by decide +kernel)) ?_
  refine .plain ⟨by decide, by decide, by decide, by decide⟩ ?_
  exact .paren (a := [Tag.TK_NAME]) (b := [Tag.TK_NAME])
    (.plain ⟨by decide, by decide, by decide, by decide⟩ .nil)
    (.plain ⟨by decide, by decide, by decide, by decide⟩ .nil)

/-- The statement of `C55_violation_allocate` is a proper one. -/
example : GoodStmt allocateStmt := by
  refine good_of (goodTags_of (by decide +kernel)) ?_
  refine .plain ⟨by decide, by decide, by decide, by decide⟩ ?_
  exact .paren (a := [Tag.TK_NAME, Tag.TK_COMMA, Tag.KW_STAT, Tag.TK_EQUAL, Tag.TK_NAME]) (b := [])
    (.plain ⟨by decide, by decide, by decide, by decide⟩ <| .plain ⟨by decide, by decide, by decide, by decide⟩ <|
      .plain ⟨by decide, by decide, by decide, by decide⟩ <| .plain ⟨by decide, by decide, by decide, by decide⟩ <|
      .plain ⟨by decide, by decide, by decide, by decide⟩ .nil) .nil

end SP
end FLPR
