import Verif.Apps.Module
import Verif.StmtParser.BuildProps
import Verif.Procedure.NameLemmas
/-!
# Lemmas for C73: the trees of call, if and use statements
-/

namespace FLPR
namespace SP
open Spec

/-! ### Pieces of a statement -/

theorem rest_split {s : Strm} {q : Nat} (h1 : s.pos ≤ q) (h2 : q ≤ s.hi) :
    restOf s = (s.all.take q).drop s.pos ++ restOf (s.goto q) := by
  rw [restOf, restOf]
  show (s.all.take s.hi).drop s.pos = (s.all.take q).drop s.pos ++ (s.all.take s.hi).drop q
  have : s.all.take q = (s.all.take s.hi).take q := by rw [List.take_take, Nat.min_eq_left h2]
  have h4 : (s.all.take q).drop s.pos = ((s.all.take s.hi).drop s.pos).take (q - s.pos) := by rw [this, List.drop_take]
  have h3 : (s.all.take s.hi).drop q = ((s.all.take s.hi).drop s.pos).drop (q - s.pos) := by
    rw [List.drop_drop]; congr 1; omega
  rw [h3, h4, List.take_append_drop]

theorem slice_snoc {l : List Tok} {b j : Nat} {a : Tok} (h : b ≤ j) (ha : l[j]? = some a) :
    (l.take (j + 1)).drop b = (l.take j).drop b ++ [a] := by
  obtain ⟨hj, rfl⟩ := List.getElem?_eq_some_iff.mp ha
  rw [List.take_succ_eq_append_getElem hj, List.drop_append_of_le_length (by rw [List.length_take]; omega)]

theorem slice_none {l : List Tok} {b : Nat} : (l.take b).drop b = [] := by
  rw [List.drop_eq_nil_iff, List.length_take]; omega

theorem covers_unique {l : List Int} {n : SNode} {b e e' : Nat} (h1 : Covers l n b e) (h2 : Covers l n b e') : e = e' := by
  have a := covers_range h1
  have a' := covers_range h2
  rcases a with ⟨p1, p2⟩ | ⟨p1, p2⟩ <;> rcases a' with ⟨q1, q2⟩ | ⟨q1, q2⟩
  · rw [p2] at q2
    injection q2 with q2
    injection q2 with _ q2
  · have := (rangeIs_empty (covers_range h1)).mp q2
    omega
  · have := (rangeIs_empty (covers_range h2)).mp p2
    omega
  · omega

theorem covers_leaf {l : List Int} {t : Int} {i b e : Nat} (h : Covers l (leafAt t i) b e) : i = b ∧ e = b + 1 ∧ LeafTag l b t := by
  rw [leafAt, Covers] at h
  rcases h with ⟨h1, h2, h3⟩ | ⟨_, h2⟩
  · injection h2 with h2
    injection h2 with h2 _
    exact ⟨h2, h1, h3⟩
  · simp [Rng.isEmpty] at h2

theorem coversAll_split {l : List Int} : ∀ {ks ks' : List SNode} {b e : Nat}, CoversAll l (ks ++ ks') b e →
    ∃ m, CoversAll l ks b m ∧ CoversAll l ks' m e
  | [], ks', b, e, h => ⟨b, by rw [CoversAll], h⟩
  | k :: ks, ks', b, e, h => by
    rw [List.cons_append, CoversAll] at h
    obtain ⟨h1, m, h2, h3⟩ := h
    obtain ⟨m', h4, h5⟩ := coversAll_split h3
    exact ⟨m', by rw [CoversAll]; exact ⟨h1, m, h2, h4⟩, h5⟩

theorem covers_kids {l : List Int} {n : SNode} {b e : Nat} (h : Covers l n b e) (hk : n.kids ≠ []) : CoversAll l n.kids b e := by
  obtain ⟨t, r, ks⟩ := n
  cases ks with
  | nil => exact absurd rfl hk
  | cons k ks => rw [Covers] at h; exact h.2

/-- The tag of a leaf that is not a name is the one of its token. -/
theorem leafTag_tok {s : Strm} {i : Nat} {t : Int} (h : LeafTag (tagsOf s) i t) (ht : t ≠ Tag.TK_NAME) : ∃ a, s.all[i]? = some a ∧ a.token = t := by
  rcases h with h | ⟨h, _⟩
  · rw [tagsOf, List.getElem?_map, Option.map_eq_some_iff] at h
    exact h
  · exact absurd h ht

theorem pair_rest {s : Strm} {e : Nat} (h : ParenPair (tagsOf s) e (s.hi - 1)) :
    ∃ mid, (restOf (s.goto e)).map (·.token) = Tag.TK_PARENL :: (mid ++ [Tag.TK_PARENR]) ∧ BalancedParens mid ∧ e < s.hi := by
  obtain ⟨pre, mid, post, h1, h2, h3, h4⟩ := h
  have hl : s.all.length = pre.length + 2 + mid.length + post.length := by
    rw [← Strm.len_tags, h1]; simp; omega
  refine ⟨mid, ?_, h4, by omega⟩
  rw [restOf_map]
  show tokSlice (tagsOf s) e s.hi = _
  rw [tokSlice, h1, h2, List.drop_left, show s.hi - pre.length = mid.length + 2 by omega, List.take_succ_cons]
  congr 1
  rw [List.take_append]
  simp [List.take_of_length_le]

/-! ### Sequences -/

/-- The first part of a sequence. -/
theorem seqLoop_first {f : P → Strm → PRes Out} {p : P} {ps : List P} {s : Strm} {acc : SNode} {r : SNode × Bool × Strm}
    (h : seqLoop f (p :: ps) s acc = .ok r) (hr : r.2.1 = true) :
    ∃ o, f p s = .ok o ∧ o.ok = true ∧ seqLoop f ps o.s (hoistBack acc o.tree) = .ok r := by
  rw [seqLoop] at h
  pbind h with o ho
  by_cases hk : o.ok = true
  · rw [if_pos hk] at h; exact ⟨o, ho, hk, h⟩
  · rw [if_neg hk] at h
    injection h with h; subst h
    exact absurd hr (by simp)

/-- A part of a sequence that is a form. -/
theorem eval_form {x : Exts} {n : Nat} {p : P} {G : Form} (hG : (toForm 40 p).any (fun F => sameForm F.erase G) = true) {s : Strm}
    (hs : GoodStmt s) {o : Out} (h : eval R.body x n p s = .ok o) (ho : o.ok = true) :
    ∃ q w, o.s = s.goto q ∧ s.pos ≤ q ∧ q ≤ s.hi ∧ restOf s = w ++ restOf (s.goto q) ∧ G.Is w := by
  cases hF' : toForm 40 p with
  | none => rw [hF'] at hG; cases hG
  | some F =>
    rw [hF', Option.any_some] at hG
    obtain ⟨q, h1, h2, h3, h4⟩ := agrees_some (eval_run x n 40 _ F s o hF' hs h) ho
    obtain ⟨w, w1, w2⟩ := run_sound F _ _ (good_nested hs) h4
    exact ⟨q, w, h1, h2, h3, w1, (sameForm_is hG w).mp w2⟩

theorem eval_rule {x : Exts} {n : Nat} {r : R} {s : Strm} {o : Out} (h : eval R.body x n (.rule r) s = .ok o) (ho : o.ok = true) :
    ∃ m t, o.tree = some t ∧ evalRule R.body x m r s = .ok (some t, o.s) := by
  cases n with
  | zero => cases h
  | succ n =>
    rw [eval, step] at h
    pbind h with w hw
    obtain ⟨w1, w2⟩ := w
    cases w1 with
    | none => injection h with h; subst h; cases ho
    | some t => injection h with h; subst h; exact ⟨n, t, rfl, hw⟩

/-- A statement parser that looks for the end of the statement has taken all of it. -/
theorem whole_of {x : Exts} (hx : GoodExts x) {r : R} {p : P} (hb : R.body r = .comb p) (hp : p.endsSeq = true) {s q : Strm} {t : SNode}
    (hs : GoodStmt s) (h : Returns x r s (.ok (some t, q))) : Covers (tagsOf s) t s.pos s.hi := by
  obtain ⟨h1, h2, h3, h4⟩ := C26_covers_partial x hx r s q t hs h
  obtain ⟨n, hn⟩ := h.eval
  rw [evalRule, hb, runBody] at hn
  pbind hn with o ho
  injection hn with hn
  injection hn with hn hq
  have hpk := (eval_safe (u := fun r => R.designates.contains r) hx grammar_good grammar_calls n).ends p s o t hp ho hn
  rw [hq, h3] at hpk
  have : q.pos = s.hi := by
    rcases peek_good (goto_good hs h1 h2) with ⟨h6, _⟩ | ⟨u, _, _, h7, h8⟩
    · exact h6
    · rw [h7] at hpk
      injection hpk with hpk
      exact absurd hpk h8.2.1
  rw [this] at h4
  exact h4

/-! ### The alternatives of `action_stmt` -/

theorem altsLoop_at {x : Exts} {n : Nat} : ∀ (rs : List R) s o, altsLoop (eval R.body x n) (rs.map .rule) s = .ok o → o.ok = true →
    ∃ r ∈ rs, eval R.body x n (.rule r) s = .ok o
  | [], s, o, h, ho => by rw [List.map_nil, altsLoop] at h; injection h with h; subst h; cases ho
  | r :: rs, s, o, h, ho => by
    rw [List.map_cons, altsLoop] at h
    pbind h with o1 h1
    by_cases hk : o1.ok = true
    · rw [if_pos hk] at h; injection h with h; subst h; exact ⟨r, by simp, h1⟩
    · rw [if_neg hk, (eval_restores R.body x n _ s o1 rfl h1 (by simpa using hk)).1] at h
      obtain ⟨r', h2, h3⟩ := altsLoop_at rs s o h ho
      exact ⟨r', by simp [h2], h3⟩

/-- The one branch of an action statement is what an alternative made of the same tokens. -/
theorem action_alt {s q : Strm} {t : SNode} (h : Returns noExts .action_stmt s (.ok (some t, q))) :
    ∃ r ∈ actionAlts, ∃ k, t.tag = Tag.SG_ACTION_STMT ∧ t.kids = [k] ∧ k.tag = r.rootTag ∧ Returns noExts r s (.ok (some k, q)) := by
  obtain ⟨htag, k, hk, hact⟩ := C56_action_tree s q t h
  obtain ⟨m, h⟩ := h.eval
  rw [evalRule, action_body, runBody] at h
  pbind h with o ho
  split at h
  · next hok =>
    injection h with h
    injection h with h1 h2
    cases m with
    | zero => cases ho
    | succ m =>
    rw [eval, step] at ho
    pbind ho with o1 ho1
    split at ho
    · next hk1 =>
      pbind ho with c hc
      injection ho with ho; subst ho
      injection h1 with h1; subst h1
      obtain ⟨r, hr, hrun⟩ := altsLoop_at _ _ _ ho1 hk1
      obtain ⟨m', k', e1, e2⟩ := eval_rule hrun hk1
      have hkt : k'.tag = r.rootTag := eval_tag (x := noExts) grammar_rootTag m (.rule r) s o1 k' r.rootTag rfl hrun e1
      have hall : actionAlts.all (fun r => isActionStmt r.rootTag) = true := by decide +kernel
      have hact' := List.all_eq_true.mp hall r hr
      have hne : k'.tag ≠ Tag.HOIST := by
        rw [hkt]
        intro e
        have e : R.rootTag r = Tag.HOIST := e
        simp only [e] at hact'
        exact absurd hact' (by decide +kernel)
      have hkids := (cover_kids (up_ok hc)).1
      rw [(hoistBack_spread _ _).1, e1, spread, if_neg hne] at hkids
      have hkk : k = k' := by
        rw [hk] at hkids
        simpa [SNode.kids] using hkids
      subst hkk
      exact ⟨r, hr, k, htag, hk, hkt, .of_eval m' (by rw [e2]; exact congrArg (fun z => Except.ok (some k, z)) h2)⟩
    · next hk1 => injection ho with ho; subst ho; exact absurd hok hk1
  · have h := up_ok h
    simp only [runExts, noExts, if_true, extLoop] at h
    injection h with h
    injection h with h
    cases h

theorem alt_call {r : R} (h : r ∈ actionAlts) (ht : r.rootTag = Tag.SG_CALL_STMT) : r = .call_stmt := by
  have : actionAlts.all (fun r => decide (r.rootTag = Tag.SG_CALL_STMT → r = .call_stmt)) = true := by decide +kernel
  exact of_decide_eq_true (List.all_eq_true.mp this r h) ht

theorem alt_if {r : R} (h : r ∈ actionAlts) (ht : r.rootTag = Tag.SG_IF_STMT) : r = .if_stmt := by
  have : actionAlts.all (fun r => decide (r.rootTag = Tag.SG_IF_STMT → r = .if_stmt)) = true := by decide +kernel
  exact of_decide_eq_true (List.all_eq_true.mp this r h) ht

end SP
end FLPR
