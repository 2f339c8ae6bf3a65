import Verif.Program.Cache
import Verif.Program.AttachProps
/-!
# C83: dropping the tree of a statement and asking for it again
-/

namespace FLPR
namespace PP
open SP Spec

theorem TreeReturns.unique {x : Exts} {c : TStmt} {a b : Res TStmt} (h1 : TreeReturns x c a) (h2 : TreeReturns x c b) : a = b := by
  obtain ⟨N, h1⟩ := h1
  obtain ⟨M, h2⟩ := h2
  exact up_inj ((h1 (max N M) (by omega)).symm.trans (h2 (max N M) (by omega)))

theorem treeReturns_some {x : Exts} {c : TStmt} {t : SNode} (h : c.tree = some t) : TreeReturns x c (.ok c) :=
  ⟨0, fun n _ => by rw [TStmt.stmtTree, h]; rfl⟩

theorem treeReturns_unknown {x : Exts} {c : TStmt} (h : c.tree = none) (hg : c.tag = Tag.UNKNOWN) :
    TreeReturns x c (.error .assertion) :=
  ⟨0, fun n _ => by rw [TStmt.stmtTree, h]; dsimp only; rw [TStmt.rebuild, if_pos hg]; rfl⟩

theorem asked_eq (x : Exts) (n : Nat) (c : TStmt) :
    (if isActionStmt c.tag then dispatch x n Tag.SG_ACTION_STMT c.text else dispatch x n c.tag c.text) =
      dispatch x n (askedFor c.tag) c.text := by
  rw [askedFor]; split <;> rfl

/-- What `stmt_tree()` does of a statement without a tree, by what the parser returns. -/
def afterParse (c : TStmt) (res : Res (Option SNode × Strm)) : Res TStmt := do
  let r ← res
  let k ← c.setTree r.1
  if k.tree.isSome = true then .ok k else .error .assertion

theorem treeReturns_parse {x : Exts} {c : TStmt} {res : Res (Option SNode × Strm)} (h : c.tree = none) (hg : c.tag ≠ Tag.UNKNOWN)
    (hd : DispatchReturns x (askedFor c.tag) c.text res) : TreeReturns x c (afterParse c res) := by
  obtain ⟨N, hd⟩ := hd
  refine ⟨N, fun n hn => ?_⟩
  have h1 := hd n hn
  rw [TStmt.stmtTree, h]
  dsimp only
  rw [TStmt.rebuild, if_neg hg, asked_eq, h1, afterParse]
  cases res with
  | error e => rfl
  | ok r =>
    show (do let k ← up (c.setTree r.1); .ok (k.tree.isSome, k) : PRes (Bool × TStmt)) >>= _ = _
    cases hk : c.setTree r.1 with
    | error e => simp only [bind, Except.bind, up]; rw [hk]
    | ok k => simp only [bind, Except.bind, up]; rw [hk]; dsimp only; split <;> rfl

theorem rule_tag {x : Exts} {r : R} {s q : Strm} {t : SNode} (h : Returns x r s (.ok (some t, q))) : t.tag = r.rootTag := by
  obtain ⟨n, h⟩ := h.eval
  exact runBody_tag (eval_tag (x := x) grammar_rootTag n) (grammar_rootTag r) h rfl

theorem setTree_text {c k : TStmt} {t : Option SNode} (h : c.setTree t = .ok k) : k.text = c.text ∧ k.tree = t ∧ treeTag t = .ok k.tag := by
  rw [TStmt.setTree] at h
  rbind h with g hg
  injection h with h; subst h
  exact ⟨rfl, rfl, hg⟩

theorem treeTag_plain {t : SNode} (h : t.tag ≠ Tag.SG_ACTION_STMT) : treeTag (some t) = .ok t.tag := by
  rw [treeTag, if_neg h]; rfl

theorem treeTag_action {t : SNode} {k : SNode} {ks : List SNode} (h : t.tag = Tag.SG_ACTION_STMT) (hk : t.kids = k :: ks) :
    treeTag (some t) = .ok k.tag := by
  rw [treeTag, if_pos h, Cur.down, hk]; rfl

/-! ### C83 -/

/-- C83: while a statement has a tree, `stmt_tree()` gives that one and changes nothing. -/
theorem C83_kept (x : Exts) (c : TStmt) (t : SNode) (h : c.tree = some t) (res : Res TStmt) : TreeReturns x c res ↔ res = .ok c :=
  ⟨fun h1 => TreeReturns.unique h1 (treeReturns_some h), fun h1 => h1 ▸ treeReturns_some h⟩

/-- C83: a statement that has neither a tree nor a tag - new, or after `reset_stmt_tree()` - cannot be asked for its
tree: the assertion fails, whatever the text is. -/
theorem C83_unparsed (x : Exts) (s : Strm) (c k : TStmt) (hk : c.reset = .ok k) (res : Res TStmt) :
    (TreeReturns x (TStmt.new s) res ↔ res = .error .assertion) ∧ (TreeReturns x k res ↔ res = .error .assertion) := by
  have h1 : TreeReturns x (TStmt.new s) (.error .assertion) := treeReturns_unknown rfl rfl
  have h2 : TreeReturns x k (.error .assertion) := by
    rw [TStmt.reset] at hk
    obtain ⟨-, h2, h3⟩ := setTree_text hk
    exact treeReturns_unknown h2 (by injection h3 with h3; exact h3.symm)
  exact ⟨⟨fun h => TreeReturns.unique h h1, fun h => h ▸ h1⟩, ⟨fun h => TreeReturns.unique h h2, fun h => h ▸ h2⟩⟩

/-- C83: without a tree but with a tag, `stmt_tree()` gives the tree that the parser for that tag makes of the text
now - the one for action statements if `is_action_stmt` says yes - and fails in any other case: the failure of the
parser, or the assertion if it does not match. -/
theorem C83_parsed (x : Exts) (c : TStmt) (h : c.tree = none) (hg : c.tag ≠ Tag.UNKNOWN) :
    (∀ t q k, DispatchReturns x (askedFor c.tag) c.text (.ok (some t, q)) → c.setTree (some t) = .ok k → TreeReturns x c (.ok k)) ∧
    (∀ q, DispatchReturns x (askedFor c.tag) c.text (.ok (none, q)) → TreeReturns x c (.error .assertion)) ∧
    (∀ e, DispatchReturns x (askedFor c.tag) c.text (.error e) → TreeReturns x c (.error e)) := by
  refine ⟨fun t q k hd hk => ?_, fun q hd => ?_, fun e hd => ?_⟩
  · have := treeReturns_parse h hg hd
    rw [afterParse] at this
    simp only [bind, Except.bind, hk, (setTree_text hk).2.1, Option.isSome_some, if_true] at this
    exact this
  · exact treeReturns_parse h hg hd
  · exact treeReturns_parse h hg hd

/-- C83, the other direction: a tree that `stmt_tree()` makes is the one of the parser for the tag. -/
theorem C83_source (x : Exts) (hx : x.Forward) (c k : TStmt) (h : c.tree = none) (hr : TreeReturns x c (.ok k)) :
    ∃ t q, DispatchReturns x (askedFor c.tag) c.text (.ok (some t, q)) ∧ k.tree = some t ∧ k.text = c.text ∧
      treeTag (some t) = .ok k.tag := by
  by_cases hg : c.tag = Tag.UNKNOWN
  · cases TreeReturns.unique hr (treeReturns_unknown h hg)
  obtain ⟨res, hd, -⟩ := C52_dispatch x hx (askedFor c.tag) c.text
  have h1 := TreeReturns.unique (treeReturns_parse h hg hd) hr
  rw [afterParse] at h1
  rbind h1 with r hr1
  rbind h1 with k' hk'
  split at h1
  · next hs =>
    injection h1 with h1; subst h1
    obtain ⟨h2, h3, h4⟩ := setTree_text hk'
    rw [h3] at hs
    obtain ⟨t, ht⟩ := Option.isSome_iff_exists.mp hs
    rw [ht] at h3 h4
    refine ⟨t, r.2, ?_, h3, h2, h4⟩
    rw [← ht, ← hr1]
    exact hd
  · cases h1

/-- C83: a tree that one of the parsers that the program parsers call makes of a statement is made again after
`drop_stmt_tree()`, with the same tag.  What is needed: its tag is none of `lostTags`, and if it is an action statement
then `is_action_stmt` knows it; both cannot be left out (`C83_violation_lost`, `C83_violation_wrapped`,
`C83_violation_extension`). -/
theorem C83_again_partial (x : Exts) (r : R) (hr : r ∈ stmtRules) (c k : TStmt) (t : SNode) (q : Strm)
    (ht : Returns x r c.text (.ok (some t, q))) (hk : c.setTree (some t) = .ok k) (hl : t.tag ∉ lostTags)
    (ha : t.tag = Tag.SG_ACTION_STMT → ∀ b ∈ t.kids.head?, isActionStmt b.tag = true) : TreeReturns x k.drop (.ok k) := by
  obtain ⟨h1, h2, h3⟩ := setTree_text hk
  have htag := rule_tag ht
  have hback : k.drop.setTree (some t) = .ok k := by
    rw [TStmt.setTree, h3]
    show Except.ok _ = _
    rw [TStmt.drop, ← h2]
  by_cases hact : t.tag = Tag.SG_ACTION_STMT
  · have hall : ∀ r ∈ stmtRules, r.rootTag = Tag.SG_ACTION_STMT → r = .action_stmt := by decide +kernel
    have hrr := hall r hr (htag ▸ hact)
    cases hkids : t.kids with
    | nil =>
      rw [treeTag, if_pos hact, Cur.down, hkids] at h3
      cases h3
    | cons b bs =>
      rw [treeTag_action hact hkids] at h3
      injection h3 with h3
      have hb := ha hact b (by rw [hkids]; rfl)
      have hne : k.drop.tag ≠ Tag.UNKNOWN := by
        show k.tag ≠ _
        rw [← h3]; intro e; rw [e] at hb; exact absurd hb (by decide +kernel)
      refine (C83_parsed x k.drop rfl hne).1 t q k ?_ hback
      have : askedFor k.drop.tag = Tag.SG_ACTION_STMT := by
        show askedFor k.tag = _
        rw [askedFor, ← h3, if_pos hb]
      rw [this, dispatch_iff]
      have hf : dispatchTable.find? (fun q => q.1 == Tag.SG_ACTION_STMT) = some (Tag.SG_ACTION_STMT, .action_stmt) := by decide +kernel
      rw [hf]
      show Returns x .action_stmt k.text _
      rw [← hrr, h1]
      exact ht
  · rw [treeTag_plain hact] at h3
    injection h3 with h3
    have hall : ∀ r ∈ stmtRules, r.rootTag ∉ lostTags → r.rootTag ≠ Tag.SG_ACTION_STMT →
        r.rootTag ≠ Tag.UNKNOWN ∧ isActionStmt r.rootTag = false ∧
        dispatchTable.find? (fun q => q.1 == r.rootTag) = some (r.rootTag, r) := by decide +kernel
    obtain ⟨h4, h5, h6⟩ := hall r hr (htag ▸ hl) (htag ▸ hact)
    rw [← htag] at h4 h5 h6
    refine (C83_parsed x k.drop rfl (by show k.tag ≠ _; rw [← h3]; exact h4)).1 t q k ?_ hback
    have : askedFor k.drop.tag = t.tag := by
      show askedFor k.tag = _
      rw [askedFor, ← h3, if_neg (by rw [h5]; decide)]
    rw [this, dispatch_iff, h6]
    show Returns x r k.text _
    rw [h1]
    exact ht

/-- C83 fails for the statements that end a labelled do loop with `end do` or `continue`, for `private` and `sequence` in
a type, and for the procedures of a type: once the tree is dropped, asking for it fails, whatever the statement and the
extensions are. -/
theorem C83_violation_lost (x : Exts) (r : R) (hr : r = .end_do ∨ r = .private_or_sequence ∨ r = .type_bound_proc_binding)
    (c k : TStmt) (t : SNode) (q : Strm) (ht : Returns x r c.text (.ok (some t, q))) (hk : c.setTree (some t) = .ok k)
    (res : Res TStmt) : TreeReturns x k.drop res ↔ res = .error .assertion := by
  obtain ⟨h1, h2, h3⟩ := setTree_text hk
  have htag := rule_tag ht
  have hall : ∀ r ∈ [R.end_do, .private_or_sequence, .type_bound_proc_binding], r.rootTag ≠ Tag.SG_ACTION_STMT ∧ r.rootTag ≠ Tag.UNKNOWN ∧
      isActionStmt r.rootTag = false ∧ dispatchTable.find? (fun q => q.1 == r.rootTag) = none := by decide +kernel
  obtain ⟨h4, h5, h6, h7⟩ := hall r (by simpa using hr)
  rw [← htag] at h4 h5 h6 h7
  rw [treeTag_plain h4] at h3
  injection h3 with h3
  have hret : TreeReturns x k.drop (.error .assertion) := by
    refine (C83_parsed x k.drop rfl (by show k.tag ≠ _; rw [← h3]; exact h5)).2.1 k.drop.text ?_
    have : askedFor k.drop.tag = t.tag := by
      show askedFor k.tag = _
      rw [askedFor, ← h3, if_neg (by rw [h6]; decide)]
    rw [this, dispatch_iff, h7]
  exact ⟨fun h => TreeReturns.unique h hret, fun h => h ▸ hret⟩

/-- C83 fails for the assignments and `where` statements of a where construct and the `forall` statements of a forall
construct: the tree that is made again is never the one that was dropped, its root is the one of an action statement. -/
theorem C83_violation_wrapped (x : Exts) (hx : x.Forward) (r : R) (hr : r = .assignment_stmt ∨ r = .forall_stmt ∨ r = .where_stmt)
    (c k : TStmt) (t : SNode) (q : Strm) (ht : Returns x r c.text (.ok (some t, q))) (hk : c.setTree (some t) = .ok k)
    (k' : TStmt) (h : TreeReturns x k.drop (.ok k')) : ∃ t', k'.tree = some t' ∧ t'.tag = Tag.SG_ACTION_STMT ∧ t.tag ≠ Tag.SG_ACTION_STMT ∧
      k'.tree ≠ k.tree := by
  obtain ⟨h1, h2, h3⟩ := setTree_text hk
  have htag := rule_tag ht
  have hall : ∀ r ∈ [R.assignment_stmt, .forall_stmt, .where_stmt], r.rootTag ≠ Tag.SG_ACTION_STMT ∧ isActionStmt r.rootTag = true := by
    decide +kernel
  obtain ⟨h4, h5⟩ := hall r (by simpa using hr)
  rw [← htag] at h4 h5
  rw [treeTag_plain h4] at h3
  injection h3 with h3
  obtain ⟨t', q', h6, h7, -, -⟩ := C83_source x hx k.drop k' rfl h
  have : askedFor k.drop.tag = Tag.SG_ACTION_STMT := by
    show askedFor k.tag = _
    rw [askedFor, ← h3, if_pos h5]
  rw [this, dispatch_iff] at h6
  have hf : dispatchTable.find? (fun q => q.1 == Tag.SG_ACTION_STMT) = some (Tag.SG_ACTION_STMT, .action_stmt) := by decide +kernel
  rw [hf] at h6
  have h8 : t'.tag = Tag.SG_ACTION_STMT := (rule_tag h6).trans (by decide +kernel)
  refine ⟨t', h7, h8, h4, ?_⟩
  rw [h7, h2]
  intro e
  injection e with e
  exact h4 (e ▸ h8)

/-- C83 fails for an action statement that a registered extension has recognised, if its tag is one of the client's own:
neither `is_action_stmt` nor `parse_stmt_dispatch` knows it. -/
theorem C83_violation_extension (x : Exts) (c k : TStmt) (t b : SNode) (bs : List SNode) (ht : t.tag = Tag.SG_ACTION_STMT) (hb : t.kids = b :: bs)
    (hc : Tag.CLIENT_EXTENSION ≤ b.tag) (hk : c.setTree (some t) = .ok k) (res : Res TStmt) :
    TreeReturns x k.drop res ↔ res = .error .assertion := by
  have hg : b.tag ≠ Tag.UNKNOWN := by
    intro e; rw [e] at hc; exact absurd hc (by decide)
  have ha : isActionStmt b.tag = false := by
    have hall : ∀ g ∈ actionTags, g < Tag.CLIENT_EXTENSION := by decide +kernel
    cases h : isActionStmt b.tag with
    | false => rfl
    | true =>
      rw [isActionStmt] at h
      have := hall b.tag (by simpa using h)
      omega
  have hd : ∀ e ∈ dispatchTable, e.1 ≠ b.tag := by
    have hall : ∀ e ∈ dispatchTable, e.1 < Tag.CLIENT_EXTENSION := by decide +kernel
    intro e he h
    have := hall e he
    omega
  obtain ⟨h1, h2, h3⟩ := setTree_text hk
  rw [treeTag_action ht hb] at h3
  injection h3 with h3
  have hret : TreeReturns x k.drop (.error .assertion) := by
    refine (C83_parsed x k.drop rfl (by show k.tag ≠ _; rw [← h3]; exact hg)).2.1 k.drop.text ?_
    have : askedFor k.drop.tag = b.tag := by
      show askedFor k.tag = _
      rw [askedFor, ← h3, if_neg (by rw [ha]; decide)]
    have hn : dispatchTable.find? (fun q => q.1 == b.tag) = none := by
      rw [List.find?_eq_none]
      intro e he
      simpa using hd e he
    rw [this, dispatch_iff, hn]
  exact ⟨fun h => TreeReturns.unique h hret, fun h => h ▸ hret⟩

/-- C83 for a whole parse without extensions: of each statement of the tree that a program parser gives, the statement
tree is there, and after `drop_stmt_tree()` the same one is made again exactly if the tag of the leaf is none of `lostTags`.
Left out, as in C68: the leaves that end the inner ones of do loops with a shared last statement. -/
theorem C83_program_partial (r : PR) (s : PState) (hs : Full s) (o : POut) (t : PNode) (h : PReturns noExts r s (.ok o)) (ht : o.tree = some t)
    (e : Nat × Int) (he : e ∈ ownLeaves t) :
    ∃ n st k, o.s.treeOf e.1 = some n ∧ s.stmts[e.1]? = some st ∧ (TStmt.new st.strm).setTree (some n) = .ok k ∧
      (TreeReturns noExts k.drop (.ok k) ↔ e.2 ∉ lostTags) := by
  have hx : Exts.Forward noExts := forward_none
  obtain ⟨n, r', hr', st, q, h1, h2, h3, h4, h5⟩ := C68_trees_partial noExts hx needToken_none r s hs o t h ht e he
  have hact : n.tag = Tag.SG_ACTION_STMT → ∃ b bs, n.kids = b :: bs ∧ isActionStmt b.tag = true := by
    intro ha
    have hall : ∀ r ∈ stmtRules, r.rootTag = Tag.SG_ACTION_STMT → r = .action_stmt := by decide +kernel
    have := hall r' hr' (by rw [← h5, ← h2, ha])
    subst this
    obtain ⟨-, b, h6, h7⟩ := C56_action_tree _ _ _ h4
    exact ⟨b, [], h6, h7⟩
  obtain ⟨k, hk⟩ : ∃ k, (TStmt.new st.strm).setTree (some n) = .ok k := by
    rw [TStmt.setTree]
    by_cases ha : n.tag = Tag.SG_ACTION_STMT
    · obtain ⟨b, bs, hb, -⟩ := hact ha
      rw [treeTag_action ha hb]; exact ⟨_, rfl⟩
    · rw [treeTag_plain ha]; exact ⟨_, rfl⟩
  refine ⟨n, st, k, h1, h3, hk, fun hret hl => ?_, fun hl => ?_⟩
  · have hall : ∀ r ∈ stmtRules, r.rootTag ∈ lostTags → (r = .end_do ∨ r = .private_or_sequence ∨ r = .type_bound_proc_binding) ∨
        (r = .assignment_stmt ∨ r = .forall_stmt ∨ r = .where_stmt) := by decide +kernel
    rcases hall r' hr' (h5 ▸ hl) with h6 | h6
    · cases (C83_violation_lost noExts r' h6 (TStmt.new st.strm) k n q h4 hk _).mp hret
    · obtain ⟨_, _, _, _, h7⟩ := C83_violation_wrapped noExts hx r' h6 (TStmt.new st.strm) k n q h4 hk k hret
      exact h7 rfl
  · refine C83_again_partial noExts r' hr' (TStmt.new st.strm) k n q h4 hk (h2 ▸ hl) ?_
    intro ha b hb
    obtain ⟨b', bs, h6, h7⟩ := hact ha
    rw [h6] at hb
    cases hb
    exact h7

/-! ### Changes of the text and of the tag -/

/-- C83: after `replace_stmt_substr`, `insert_text_after` or `append_stmt_text` the tree is that of the text now: what
is asked is the parser for the tag that the statement had before. -/
theorem C83_edit (x : Exts) (hx : x.Forward) (c : TStmt) (s : Strm) (k : TStmt) (h : TreeReturns x (c.edit s) (.ok k)) :
    ∃ t q, DispatchReturns x (askedFor c.tag) s (.ok (some t, q)) ∧ k.tree = some t ∧ k.text = s ∧ treeTag (some t) = .ok k.tag :=
  C83_source x hx (c.edit s) k rfl h

/-- C83: so it is after `update_range`, which the splitting of a compound line calls. -/
theorem C83_update (x : Exts) (hx : x.Forward) (c : TStmt) (s : Strm) (k : TStmt) (h : TreeReturns x (c.updateRange s) (.ok k)) :
    ∃ t q, DispatchReturns x (askedFor c.tag) s (.ok (some t, q)) ∧ k.tree = some t ∧ k.text = s ∧ treeTag (some t) = .ok k.tag :=
  C83_source x hx (c.updateRange s) k rfl h

/-- C83: a call of `stmt_tree()` ends, and in one way only. -/
theorem C83_ends (x : Exts) (hx : x.Forward) (c : TStmt) : ∃ res, TreeReturns x c res ∧ ∀ res', TreeReturns x c res' → res' = res := by
  obtain ⟨res, h⟩ : ∃ res, TreeReturns x c res := by
    cases ht : c.tree with
    | some t => exact ⟨_, treeReturns_some ht⟩
    | none =>
      by_cases hg : c.tag = Tag.UNKNOWN
      · exact ⟨_, treeReturns_unknown ht hg⟩
      · obtain ⟨res, hd, -⟩ := C52_dispatch x hx (askedFor c.tag) c.text
        exact ⟨_, treeReturns_parse ht hg hd⟩
  exact ⟨res, h, fun _ h' => TreeReturns.unique h' h⟩

/-- C83: after `replace_stmt_text` with a tag that the statement did not have, too. -/
theorem C83_replace_partial (x : Exts) (hx : x.Forward) (c : TStmt) (s : Strm) (g : Int) (hg : g ≠ c.tag) (k : TStmt)
    (h : TreeReturns x (c.replaceText s g) (.ok k)) :
    ∃ t q, DispatchReturns x (askedFor g) s (.ok (some t, q)) ∧ k.tree = some t ∧ k.text = s ∧ treeTag (some t) = .ok k.tag :=
  C83_source x hx (c.replaceText s g) k (by rw [TStmt.replaceText, TStmt.setTag, if_pos hg]) h

/-- C83 fails for `replace_stmt_text` with the tag that the statement has: the tree of the old text stays, whatever the new
text is. -/
theorem C83_violation_replace (x : Exts) (c : TStmt) (t : SNode) (h : c.tree = some t) (s : Strm) (res : Res TStmt) :
    TreeReturns x (c.replaceText s c.tag) res ↔ res = .ok { c with text := s } := by
  have : c.replaceText s c.tag = { c with text := s } := by
    rw [TStmt.replaceText, TStmt.setTag, if_neg (by simp)]
  rw [this]
  exact C83_kept x { c with text := s } t h res

/-- C83: which of the action tags is given to `set_stmt_syntag` makes no difference to the tree. -/
theorem C83_action_tag (x : Exts) (c : TStmt) (g g' : Int) (hg : isActionStmt g = true) (hg' : isActionStmt g' = true) (hc : c.tree = none)
    (res : Res TStmt) : TreeReturns x (c.setTag g) res ↔ TreeReturns x (c.setTag g') res := by
  have hu : ∀ g, isActionStmt g = true → g ≠ Tag.UNKNOWN := by
    intro g hg e; rw [e] at hg; exact absurd hg (by decide +kernel)
  have key : ∀ n, (c.setTag g).stmtTree x n = (c.setTag g').stmtTree x n := by
    intro n
    have hn : ∀ g, (c.setTag g).tree = none := by
      intro g; rw [TStmt.setTag]; dsimp only; rw [hc, ite_self]
    rw [TStmt.stmtTree, TStmt.stmtTree, hn, hn]
    dsimp only
    rw [TStmt.rebuild, TStmt.rebuild, if_neg (show (c.setTag g).tag ≠ _ from hu g hg), if_neg (show (c.setTag g').tag ≠ _ from hu g' hg')]
    rw [asked_eq, asked_eq, show askedFor (c.setTag g).tag = Tag.SG_ACTION_STMT from if_pos hg,
      show askedFor (c.setTag g').tag = Tag.SG_ACTION_STMT from if_pos hg']
    rfl
  simp only [TreeReturns, key]

end PP
end FLPR
