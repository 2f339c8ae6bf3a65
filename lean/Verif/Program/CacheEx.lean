import Verif.Program.CacheProps
/-!
# C83: statements for which the theorems say something
-/

namespace FLPR
namespace PP
open SP Spec

/-- A test of what `stmt_tree()` leaves. -/
def keptIs (w : PRes TStmt) (q : SNode → Int → Bool) : Bool :=
  match w with
  | .ok k => k.tree.any (fun t => q t k.tag)
  | .error _ => false

theorem mono_tree {x : Exts} {n : Nat} {c : TStmt} {q : SNode → Int → Bool} (h : keptIs (c.stmtTree x n) q = true)
    (hn : c.tree = none) : ∃ k t, TreeReturns x c (.ok k) ∧ k.tree = some t ∧ q t k.tag = true := by
  cases hw : c.stmtTree x n with
  | error e => rw [hw] at h; cases h
  | ok k =>
    rw [hw, keptIs, Option.any_eq_true] at h
    obtain ⟨t, h1, h2⟩ := h
    refine ⟨k, t, ?_, h1, h2⟩
    rw [TStmt.stmtTree, hn] at hw
    dsimp only at hw
    pbind hw with r hr
    split at hw
    · injection hw with hw; subst hw
      rw [TStmt.rebuild] at hr
      split at hr
      · injection hr with hr; subst hr; rw [hn] at h1; cases h1
      · next hg =>
        rw [asked_eq] at hr
        pbind hr with w hw
        pbind hr with k' hk'
        injection hr with hr; subst hr
        have hk' := up_ok hk'
        have hd : DispatchReturns x (askedFor c.tag) c.text (.ok w) := by
          rw [dispatch_iff]
          rw [dispatch] at hw
          split at hw <;> rename_i hq <;> rw [hq]
          · exact .of_eval n hw
          · injection hw with hw; subst hw; rfl
        have h3 : w.1 = some t := by rw [← (setTree_text hk').2.1]; exact h1
        obtain ⟨wt, wq⟩ := w
        dsimp only at h3 hk'
        subst h3
        exact (C83_parsed x c hn hg).1 t wq k' hd hk'
    · cases hw

/-- `x=1` -/
def kAssign : Strm := lineOf [Tag.TK_NAME, Tag.TK_EQUAL, Tag.SG_INT_LITERAL_CONSTANT]
/-- `x=y+z` -/
def kSum : Strm := lineOf [Tag.TK_NAME, Tag.TK_EQUAL, Tag.TK_NAME, Tag.TK_PLUS, Tag.TK_NAME]
/-- `sequence` -/
def kSequence : Strm := lineOf [Tag.KW_SEQUENCE]
/-- `end do` -/
def kEndDo : Strm := lineOf [Tag.KW_END, Tag.KW_DO]
/-- `procedure :: a` -/
def kBinding : Strm := lineOf [Tag.KW_PROCEDURE, Tag.TK_DBL_COLON, Tag.TK_NAME]
/-- `return` -/
def kReturn : Strm := lineOf [Tag.KW_RETURN]

/-- The statements whose tree is lost are there. -/
example : (∃ t q k, Returns noExts .end_do kEndDo (.ok (some t, q)) ∧ (TStmt.new kEndDo).setTree (some t) = .ok k) ∧
    (∃ t q k, Returns noExts .private_or_sequence kSequence (.ok (some t, q)) ∧ (TStmt.new kSequence).setTree (some t) = .ok k) ∧
    ∃ t q k, Returns noExts .type_bound_proc_binding kBinding (.ok (some t, q)) ∧ (TStmt.new kBinding).setTree (some t) = .ok k := by
  have key : ∀ (r : R) (s : Strm), r.rootTag ≠ Tag.SG_ACTION_STMT → (∃ t q, Returns noExts r s (.ok (t, q)) ∧ t.isSome = true) →
      ∃ t q k, Returns noExts r s (.ok (some t, q)) ∧ (TStmt.new s).setTree (some t) = .ok k := by
    rintro r s hr ⟨t, q, h1, h2⟩
    obtain ⟨t, rfl⟩ := Option.isSome_iff_exists.mp h2
    refine ⟨t, q, ⟨s, some t, t.tag⟩, h1, ?_⟩
    rw [TStmt.setTree, treeTag_plain (by rw [rule_tag h1]; exact hr)]
    rfl
  exact ⟨key _ _ (by decide +kernel) (returns_of_holds 40 (q := fun t _ => t.isSome) (by decide +kernel)),
    key _ _ (by decide +kernel) (returns_of_holds 40 (q := fun t _ => t.isSome) (by decide +kernel)),
    key _ _ (by decide +kernel) (returns_of_holds 40 (q := fun t _ => t.isSome) (by decide +kernel))⟩

/-- The assignment `x=1` of a where construct: its tree is dropped, and another one is made. -/
example : ∃ t q k k', Returns noExts .assignment_stmt kAssign (.ok (some t, q)) ∧ (TStmt.new kAssign).setTree (some t) = .ok k ∧
    TreeReturns noExts k.drop (.ok k') := by
  obtain ⟨t, q, h1, h2⟩ := returns_of_holds (x := noExts) (r := .assignment_stmt) (s := kAssign) (q := fun t _ => t.isSome) 40 (by decide +kernel)
  obtain ⟨t, rfl⟩ := Option.isSome_iff_exists.mp h2
  have htag : t.tag = Tag.SG_ASSIGNMENT_STMT := (rule_tag h1).trans (by decide +kernel)
  have hk : (TStmt.new kAssign).setTree (some t) = .ok ⟨kAssign, some t, Tag.SG_ASSIGNMENT_STMT⟩ := by
    rw [TStmt.setTree, treeTag_plain (by rw [htag]; decide), htag]
    rfl
  obtain ⟨k', -, h3, -⟩ := mono_tree (x := noExts) (n := 40) (c := ⟨kAssign, none, Tag.SG_ASSIGNMENT_STMT⟩) (q := fun _ _ => true)
    (by decide +kernel) rfl
  exact ⟨t, q, _, k', h1, hk, h3⟩

/-- The tree of `x=1` as an action statement, and the one of `x=y+z`. -/
theorem kept_trees : ∃ t q k t' q', Returns noExts .action_stmt kAssign (.ok (some t, q)) ∧ (TStmt.new kAssign).setTree (some t) = .ok k ∧
    k.tag = Tag.SG_ASSIGNMENT_STMT ∧ Returns noExts .action_stmt kSum (.ok (some t', q')) ∧ t.range = some (0, 3) ∧ t'.range = some (0, 5) := by
  obtain ⟨t, q, h1, h2⟩ := returns_of_holds (x := noExts) (r := .action_stmt) (s := kAssign)
    (q := fun t _ => t.any (fun t => t.range == some (0, 3) && t.kids.head?.any (fun b => b.tag == Tag.SG_ASSIGNMENT_STMT))) 40 (by decide +kernel)
  obtain ⟨t', q', h3, h4⟩ := returns_of_holds (x := noExts) (r := .action_stmt) (s := kSum)
    (q := fun t _ => t.any (fun t => t.range == some (0, 5))) 40 (by decide +kernel)
  simp only [Option.any_eq_true, Bool.and_eq_true, beq_iff_eq] at h2 h4
  obtain ⟨t, rfl, h5, b, hb, h6⟩ := h2
  obtain ⟨t', rfl, h7⟩ := h4
  obtain ⟨bs, hbs⟩ : ∃ bs, t.kids = b :: bs := by
    cases hk : t.kids with
    | nil => rw [hk] at hb; cases hb
    | cons b' bs => rw [hk] at hb; cases hb; exact ⟨bs, rfl⟩
  have hk : (TStmt.new kAssign).setTree (some t) = .ok ⟨kAssign, some t, Tag.SG_ASSIGNMENT_STMT⟩ := by
    rw [TStmt.setTree, treeTag_action ((rule_tag h1).trans (by decide +kernel)) hbs, h6]
    rfl
  exact ⟨t, q, _, t', q', h1, hk, rfl, h3, h5, h7⟩

/-- C83 fails, for example: the text of the assignment `x=1` is replaced by that of the assignment `x=y+z`.  The tree is
still the one of `x=1`, and not the one that the parser makes of the text now. -/
theorem C83_violation_replace_example : ∃ t q k t' q', Returns noExts .action_stmt kAssign (.ok (some t, q)) ∧
    (TStmt.new kAssign).setTree (some t) = .ok k ∧ k.tag = Tag.SG_ASSIGNMENT_STMT ∧
    DispatchReturns noExts (askedFor Tag.SG_ASSIGNMENT_STMT) kSum (.ok (some t', q')) ∧
    (∀ res, TreeReturns noExts (k.replaceText kSum Tag.SG_ASSIGNMENT_STMT) res → ∃ k', res = .ok k' ∧ k'.tree = some t) ∧ t ≠ t' := by
  obtain ⟨t, q, k, t', q', h1, hk, hg, h2, h3, h4⟩ := kept_trees
  refine ⟨t, q, k, t', q', h1, hk, hg, ?_, fun res hr => ?_, ?_⟩
  · rw [dispatch_iff]
    exact h2
  · rw [← hg] at hr
    exact ⟨_, (C83_violation_replace noExts k t (setTree_text hk).2.1 kSum res).mp hr, (setTree_text hk).2.1⟩
  · intro e
    rw [e, h4] at h3
    cases h3

/-- The hypotheses of `C83_again_partial` and `C83_replace_partial` can be met. -/
example : (∃ r ∈ stmtRules, ∃ c k t q, Returns noExts r (TStmt.text c) (.ok (some t, q)) ∧ c.setTree (some t) = .ok k ∧ t.tag ∉ lostTags ∧
      (t.tag = Tag.SG_ACTION_STMT → ∀ b ∈ t.kids.head?, isActionStmt b.tag = true)) ∧
    ∃ c s g k, g ≠ TStmt.tag c ∧ TreeReturns noExts (c.replaceText s g) (.ok k) := by
  constructor
  · obtain ⟨t, q, k, t', q', h1, hk, hg, -⟩ := kept_trees
    refine ⟨.action_stmt, by decide, TStmt.new kAssign, k, t, q, h1, hk, ?_, ?_⟩
    · rw [show t.tag = Tag.SG_ACTION_STMT from (rule_tag h1).trans (by decide +kernel)]; decide
    · obtain ⟨-, b, hb, h2⟩ := C56_action_tree _ _ _ h1
      intro _ b' hb'
      rw [hb] at hb'
      cases hb'
      exact h2
  · obtain ⟨k', -, h3, -⟩ := mono_tree (x := noExts) (n := 40) (c := (TStmt.new kAssign).replaceText kReturn Tag.SG_RETURN_STMT)
      (q := fun _ _ => true) (by decide +kernel) rfl
    exact ⟨_, _, _, k', by decide, h3⟩

/-- C83 fails for the tag: `set_stmt_syntag` says that `return` is an assignment, and asking for the tree changes the
tag that `syntax_tag()` gives to the one of a return. -/
theorem C83_violation_syntag : ((TStmt.new kReturn).setTag Tag.SG_ASSIGNMENT_STMT).tag = Tag.SG_ASSIGNMENT_STMT ∧
    ∃ k, TreeReturns noExts ((TStmt.new kReturn).setTag Tag.SG_ASSIGNMENT_STMT) (.ok k) ∧ k.tag = Tag.SG_RETURN_STMT := by
  refine ⟨rfl, ?_⟩
  obtain ⟨k, t, h1, -, h2⟩ := mono_tree (x := noExts) (n := 40) (c := (TStmt.new kReturn).setTag Tag.SG_ASSIGNMENT_STMT)
    (q := fun _ g => g == Tag.SG_RETURN_STMT) (by decide +kernel) rfl
  exact ⟨k, h1, by simpa using h2⟩

/-- A statement of an extension with its own tag, for `C83_violation_extension`. -/
example : ∃ (x : Exts) (s q : Strm) (t b : SNode) (k : TStmt), Returns x .action_stmt s (.ok (some t, q)) ∧ t.kids = [b] ∧
    Tag.CLIENT_EXTENSION ≤ b.tag ∧ t.tag = Tag.SG_ACTION_STMT ∧ (TStmt.new s).setTree (some t) = .ok k := by
  obtain ⟨t, q, h1, h2⟩ := returns_of_holds (x := ⟨[fun s => .ok (some (.node Tag.CLIENT_EXTENSION (some (s.pos, s.pos + 1)) []), s.pos + 1)], []⟩)
    (r := .action_stmt) (s := kSequence)
    (q := fun t _ => t.any (fun t => match t.kids with | [b] => b.tag == Tag.CLIENT_EXTENSION | _ => false)) 40 (by decide +kernel)
  simp only [Option.any_eq_true] at h2
  obtain ⟨t, rfl, h2⟩ := h2
  have htag := (rule_tag h1).trans (show R.rootTag .action_stmt = Tag.SG_ACTION_STMT by decide +kernel)
  split at h2
  · next b hb =>
    simp only [beq_iff_eq] at h2
    refine ⟨_, _, q, t, b, ⟨kSequence, some t, b.tag⟩, h1, hb, by omega, htag, ?_⟩
    rw [TStmt.setTree, treeTag_action htag hb]
    rfl
  · cases h2

/-- A type with `sequence` for `C83_program_partial`: leaves of both kinds. -/
example : ∃ o t, PReturns noExts .derived_type_def (xstate [xstmt 0 [xtok Tag.KW_TYPE, xtok Tag.TK_NAME], ⟨0, kSequence⟩,
      xstmt 0 [xtok Tag.KW_END, xtok Tag.KW_TYPE]]) (.ok o) ∧ o.tree = some t ∧
    (1, Tag.SG_PRIVATE_OR_SEQUENCE) ∈ ownLeaves t ∧ (0, Tag.SG_DERIVED_TYPE_STMT) ∈ ownLeaves t := by
  obtain ⟨o, h1, h2⟩ := returns_of (x := noExts) (r := .derived_type_def) (s := xstate [xstmt 0 [xtok Tag.KW_TYPE, xtok Tag.TK_NAME], ⟨0, kSequence⟩,
      xstmt 0 [xtok Tag.KW_END, xtok Tag.KW_TYPE]])
    (q := fun o => match o.tree with
      | some t => decide ((1, Tag.SG_PRIVATE_OR_SEQUENCE) ∈ ownLeaves t ∧ (0, Tag.SG_DERIVED_TYPE_STMT) ∈ ownLeaves t)
      | none => false) 40 (by decide +kernel)
  cases ht : o.tree with
  | none => rw [ht] at h2; cases h2
  | some t =>
    rw [ht] at h2
    simp only [decide_eq_true_eq] at h2
    exact ⟨o, t, h1, ht, h2⟩

end PP
end FLPR
