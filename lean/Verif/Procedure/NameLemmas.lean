import Verif.Procedure.Name
import Verif.Procedure.Lemmas
import Verif.StmtParser.FormTable
import Verif.StmtParser.ParserProps
/-!
# Lemmas for C69
-/

namespace FLPR
namespace SP
open Spec

theorem goto_good {s : Strm} (h : GoodStmt s) {q : Nat} (h1 : s.pos ≤ q) (h2 : q ≤ s.hi) : GoodStmt (s.goto q) :=
  ⟨Nat.le_trans h.lo_pos h1, h2, h.hi_len, h.tags, h.nested⟩

/-- The branches that a sequence has collected stay in front. -/
theorem seqLoop_kids {f : P → Strm → PRes Out} : ∀ ps s acc r, seqLoop f ps s acc = .ok r → ∃ more, r.1.kids = acc.kids ++ more := by
  intro ps
  induction ps with
  | nil => intro s acc r h; injection h with h; subst h; exact ⟨[], by simp⟩
  | cons p ps ih =>
    intro s acc r h
    rw [seqLoop] at h
    pbind h with o ho
    have key : ∃ more, (hoistBack acc o.tree).kids = acc.kids ++ more := by
      cases acc with
      | node t rg ks =>
        cases o.tree with
        | none => exact ⟨[], by simp [hoistBack]⟩
        | some d =>
          cases d with
          | node dt dr dks =>
            rw [hoistBack]
            split
            · exact ⟨dks, rfl⟩
            · exact ⟨[.node dt dr dks], rfl⟩
    obtain ⟨m, hm⟩ := key
    split at h
    · obtain ⟨m', hm'⟩ := ih _ _ _ h
      exact ⟨m ++ m', by rw [hm', hm, List.append_assoc]⟩
    · injection h with h; subst h; exact ⟨m, hm⟩

theorem cover_kids {n n' : SNode} (h : coverBranches n = .ok n') : n'.kids = n.kids ∧ n'.tag = n.tag := by
  cases n with
  | node t r ks =>
    rw [coverBranches] at h
    split at h
    · injection h with h; subst h; exact ⟨rfl, rfl⟩
    · rbind h with r' hr'
      injection h with h; subst h; exact ⟨rfl, rfl⟩

/-- A sequence that starts with a token. -/
theorem seqLoop_tok {x : Exts} {n : Nat} {k : Int} (hk : k ≠ Tag.BAD) (hh : k ≠ Tag.HOIST) {ps : List P} {s : Strm} (hs : GoodStmt s)
    {acc : SNode} {r : SNode × Bool × Strm} (h : seqLoop (eval R.body x n) (.tok k :: ps) s acc = .ok r) (hr : r.2.1 = true) :
    ∃ a, s.pos < s.hi ∧ restOf s = a :: restOf (s.goto (s.pos + 1)) ∧ a.token = k ∧ s.all[s.pos]? = some a ∧
      seqLoop (eval R.body x n) ps (s.goto (s.pos + 1)) (.node acc.tag acc.range (acc.kids ++ [.node k (some (s.pos, s.pos + 1)) []])) = .ok r := by
  rw [seqLoop] at h
  pbind h with o ho
  cases n with
  | zero => cases ho
  | succ n =>
  rw [eval, step] at ho
  have ho := up_ok ho
  rw [runTok] at ho
  have no : o = noMatch s → False := by
    rintro rfl
    rw [if_neg (by simp [noMatch])] at h
    injection h with h; subst h; cases hr
  rcases rest_cases hs with ⟨_, h2, h3⟩ | ⟨a, hlt, h2, h3, _, _, h6⟩
  · rw [h3, Res.ok_bind, if_pos hk] at ho
    injection ho with ho
    exact (no ho.symm).elim
  · rw [h3, Res.ok_bind] at ho
    by_cases he : k = a.token
    · rw [if_neg (by simpa using he)] at ho
      obtain ⟨rfl, _⟩ := leaf_ok ho
      refine ⟨a, hlt, h2, he.symm, h6, ?_⟩
      cases acc with
      | node t rg ks =>
        rw [if_pos rfl, hoistBack, if_neg hh] at h
        exact h
    · rw [if_pos he] at ho
      injection ho with ho
      exact (no ho.symm).elim

/-- A sequence that starts with a name. -/
theorem seqLoop_name {x : Exts} {n : Nat} {ps : List P} {s : Strm} (hs : GoodStmt s)
    {acc : SNode} {r : SNode × Bool × Strm} (h : seqLoop (eval R.body x n) (.name :: ps) s acc = .ok r) (hr : r.2.1 = true) :
    ∃ a, s.pos < s.hi ∧ restOf s = a :: restOf (s.goto (s.pos + 1)) ∧ NameTag a.token ∧ s.all[s.pos]? = some a ∧
      seqLoop (eval R.body x n) ps (s.goto (s.pos + 1)) (.node acc.tag acc.range (acc.kids ++ [.node Tag.TK_NAME (some (s.pos, s.pos + 1)) []])) = .ok r := by
  rw [seqLoop] at h
  pbind h with o ho
  cases n with
  | zero => cases ho
  | succ n =>
  rw [eval, step] at ho
  have ho := up_ok ho
  rw [runName] at ho
  have no : o = noMatch s → False := by
    rintro rfl
    rw [if_neg (by simp [noMatch])] at h
    injection h with h; subst h; cases hr
  rcases rest_cases hs with ⟨_, h2, h3⟩ | ⟨a, hlt, h2, h3, hlx, _, h6⟩
  · rw [h3, Res.ok_bind, isName_bad, Res.ok_bind] at ho
    injection ho with ho
    exact (no ho.symm).elim
  · obtain ⟨b, hb⟩ := hlx.1
    rw [h3, Res.ok_bind, hb, Res.ok_bind] at ho
    cases b with
    | false =>
      injection ho with ho
      exact (no ho.symm).elim
    | true =>
      rw [if_pos rfl] at ho
      obtain ⟨rfl, _⟩ := leaf_ok ho
      refine ⟨a, hlt, h2, of_decide_eq_true (nameTag_iff hb).symm, h6, ?_⟩
      cases acc with
      | node t rg ks =>
        rw [if_pos rfl, hoistBack, if_neg (by decide)] at h
        exact h

/-- The form of a prefix. -/
theorem prefix_form : (toForm 40 (.opt (.rule .«prefix»))).any (fun F => sameForm F.erase Std.prefix_) = true := by decide +kernel

/-- A sequence that starts with a prefix. -/
theorem seqLoop_prefix {x : Exts} {n : Nat} {ps : List P} {s : Strm} (hs : GoodStmt s) {t : Int} {rg : Rng}
    {r : SNode × Bool × Strm} (h : seqLoop (eval R.body x n) (.opt (.rule .«prefix») :: ps) s (.node t rg []) = .ok r) :
    ∃ q w ks, s.pos ≤ q ∧ q ≤ s.hi ∧ restOf s = w ++ restOf (s.goto q) ∧ Std.prefix_.Is w ∧
      (ks = [] ∨ ∃ k, ks = [k] ∧ k.tag = Tag.SG_PREFIX) ∧ seqLoop (eval R.body x n) ps (s.goto q) (.node t rg ks) = .ok r := by
  rw [seqLoop] at h
  pbind h with o ho
  have hF := prefix_form
  cases hF' : toForm 40 (.opt (.rule .«prefix»)) with
  | none => rw [hF'] at hF; cases hF
  | some F =>
    rw [hF', Option.any_some] at hF
    have hag := eval_run x n 40 _ F s o hF' hs ho
    have hok : o.ok = true := by
      cases n with
      | zero => cases ho
      | succ n =>
        rw [eval, step] at ho
        pbind ho with o' ho'
        injection ho with ho; subst ho; rfl
    obtain ⟨q, h1, h2, h3, h4⟩ := agrees_some hag hok
    obtain ⟨w, w1, w2⟩ := run_sound F _ _ (good_nested hs) h4
    rw [if_pos hok, h1] at h
    refine ⟨q, w, (hoistBack (.node t rg []) o.tree).kids, h2, h3, w1, (sameForm_is hF w).mp w2, ?_, ?_⟩
    · cases ht : o.tree with
      | none => exact .inl rfl
      | some k =>
        have hk := eval_tag (x := x) grammar_rootTag n _ s o k _ rfl ho ht
        have hk : k.tag = Tag.SG_PREFIX := by rw [hk]; decide +kernel
        cases k with
        | node kt kr kks =>
          refine .inr ⟨.node kt kr kks, ?_, hk⟩
          rw [hoistBack, if_neg (by rw [show kt = Tag.SG_PREFIX from hk]; decide)]
          rfl
    · have : hoistBack (.node t rg []) o.tree = .node t rg (hoistBack (.node t rg []) o.tree).kids := by
        cases o.tree with
        | none => rfl
        | some k =>
          cases k with
          | node kt kr kks =>
            rw [hoistBack]
            split <;> rfl
      rw [← this]
      exact h

end SP

namespace Proc
open PP Reg Spec
open SP (SNode R Exts Strm)

theorem deref_some {l : List Tok} {i : Nat} {a : Tok} (h : l[i]? = some a) : SP.derefTok l i = .ok a := by
  obtain ⟨hi, rfl⟩ := List.getElem?_eq_some_iff.mp h
  rw [SP.derefTok, if_pos hi]
  simp [hi]

/-- The cursor of `name()` comes to the token `a`. -/
def NameAt (toks : List Tok) (t : SNode) (a : Tok) : Prop :=
  ∃ c i, nameCur t = .ok c ∧ oneToken c.1 = .ok i ∧ toks[i]? = some a

theorem nameAt_of {toks : List Tok} {t : SNode} {a : Tok} (h : NameAt toks t a) : nameOf toks t = .ok a.text := by
  obtain ⟨c, i, h1, h2, h3⟩ := h
  rw [nameOf, h1, Res.ok_bind, h2, Res.ok_bind, deref_some h3]
  rfl

theorem nameOf_kids {toks : List Tok} {t : SNode} {ks more : List SNode} {k : Int} {b i : Nat} {a : Tok} {mid : List SNode}
    (h : t.kids = ks ++ (.node k (some (b, b + 1)) [] :: (mid ++ .node Tag.TK_NAME (some (i, i + 1)) [] :: more)))
    (hks : ks = [] ∨ ∃ k, ks = [k] ∧ k.tag = Tag.SG_PREFIX) (hk : k ≠ Tag.SG_PREFIX)
    (hmid : mid = [] ∨ ∃ r, mid = [.node Tag.KW_PROCEDURE r []]) (ha : toks[i]? = some a) : NameAt toks t a := by
  have hcur : nameCur t = .ok (.node Tag.TK_NAME (some (i, i + 1)) [], more) := by
    have hp : ¬ Tag.TK_NAME = Tag.KW_PROCEDURE := by decide
    rcases hks with rfl | ⟨p, rfl, hp'⟩ <;> rcases hmid with rfl | ⟨r, rfl⟩
    · simp [nameCur, Cur.down, Cur.next, h, SNode.tag, hk, Res.ok_bind]
    · simp [nameCur, Cur.down, Cur.next, h, SNode.tag, hk, Res.ok_bind]
    · obtain ⟨pt, pr, pks⟩ := p
      have hp' : pt = Tag.SG_PREFIX := hp'
      simp [nameCur, Cur.down, Cur.next, h, SNode.tag, hp', Res.ok_bind]
    · obtain ⟨pt, pr, pks⟩ := p
      have hp' : pt = Tag.SG_PREFIX := hp'
      simp [nameCur, Cur.down, Cur.next, h, SNode.tag, hp', Res.ok_bind]
  exact ⟨_, i, hcur, by simp [oneToken, SNode.range], ha⟩

/-- The rules for the statements that begin a procedure. -/
def beginRules : List R := [.function_stmt, .subroutine_stmt, .program_stmt, .mp_subprogram_stmt]

theorem beginRules_only {r : R} (h : r.rootTag ∈ [Tag.SG_FUNCTION_STMT, Tag.SG_SUBROUTINE_STMT, Tag.SG_PROGRAM_STMT, Tag.SG_MP_SUBPROGRAM_STMT]) :
    r ∈ beginRules := by
  have := SP.R.forall_of (q := fun r => decide (r.rootTag ∈ [Tag.SG_FUNCTION_STMT, Tag.SG_SUBROUTINE_STMT, Tag.SG_PROGRAM_STMT, Tag.SG_MP_SUBPROGRAM_STMT] →
    r ∈ beginRules)) (by decide +kernel) r
  exact of_decide_eq_true this h

theorem seq_rule {x : Exts} {n : Nat} {r : R} {tag : Int} {ps : List SP.P} (hb : SP.R.body r = .comb (.seq tag ps)) {s : Strm} {t : SNode} {q : Strm}
    (h : SP.evalRule SP.R.body x n r s = .ok (some t, q)) :
    ∃ m w, SP.seqLoop (SP.eval SP.R.body x m) ps s (.node Tag.UNKNOWN none []) = .ok w ∧ w.2.1 = true ∧ t.kids = w.1.kids ∧ q = w.2.2 := by
  rw [SP.evalRule, hb, SP.runBody] at h
  pbind h with o ho
  cases n with
  | zero => cases ho
  | succ n =>
  rw [SP.eval, SP.step] at ho
  pbind ho with w hw
  by_cases hk : w.2.1 = true
  · rw [if_pos hk] at ho
    pbind ho with c hc
    injection ho with ho; subst ho
    injection h with h
    injection h with h1 h2
    injection h1 with h1
    refine ⟨n, w, hw, hk, ?_, h2.symm⟩
    rw [← h1, (SP.cover_kids (SP.up_ok hc)).1]
    rfl
  · rw [if_neg hk] at ho
    injection ho with ho; subst ho
    injection h with h
    injection h with h1
    cases h1

theorem named_prefixed {x : Exts} {m : Nat} {kw : Int} (h1 : kw ≠ Tag.BAD) (h2 : kw ≠ Tag.HOIST) (h3 : kw ≠ Tag.SG_PREFIX) {ps : List SP.P} {s : Strm}
    (hs : GoodStmt s) {w : SNode × Bool × Strm} {t : SNode}
    (hw : SP.seqLoop (SP.eval SP.R.body x m) (.opt (.rule .«prefix») :: .tok kw :: .name :: ps) s (.node Tag.UNKNOWN none []) = .ok w)
    (hok : w.2.1 = true) (ht : t.kids = w.1.kids) :
    ∃ a pre kws rest, NameTag a.token ∧ restOf s = pre ++ kws ++ a :: rest ∧ Std.prefix_.Is pre ∧ kws.map (·.token) = [kw] ∧
      NameAt s.all t a := by
  obtain ⟨q, pre, ks, q1, q2, q3, q4, q5, hw⟩ := SP.seqLoop_prefix hs hw
  obtain ⟨k, k1, k2, k3, _, hw⟩ := SP.seqLoop_tok h1 h2 (SP.goto_good hs q1 q2) hw hok
  obtain ⟨a, a1, a2, a3, a4, hw⟩ := SP.seqLoop_name (SP.goto_good (SP.goto_good hs q1 q2) (Nat.le_add_right _ 1) k1) hw hok
  obtain ⟨more, hm⟩ := SP.seqLoop_kids _ _ _ _ hw
  refine ⟨a, pre, [k], _, a3, by rw [q3, k2, a2]; simp; rfl, q4, by simp [k3], ?_⟩
  · rw [hm] at ht
    refine nameOf_kids (ks := ks) (mid := []) (more := more) (b := (s.goto q).pos) ?_ q5 h3 (.inl rfl) a4
    rw [ht]
    simp [SNode.kids]

/-- The name in the tree of a statement that begins a procedure. -/
theorem begin_name {x : Exts} {n : Nat} {r : R} (hr : r ∈ beginRules) {s : Strm} (hs : GoodStmt s) {t : SNode} {q : Strm}
    (h : SP.evalRule SP.R.body x n r s = .ok (some t, q)) : ∃ a, Named r.rootTag (restOf s) a ∧ NameAt s.all t a := by
  simp only [beginRules, List.mem_cons, List.not_mem_nil, or_false] at hr
  rcases hr with rfl | rfl | rfl | rfl
  · obtain ⟨m, w, hw, hok, ht, _⟩ := seq_rule (r := .function_stmt) rfl h
    obtain ⟨a, pre, kws, rest, b1, b2, b3, b4, b5⟩ := named_prefixed (by decide) (by decide) (by decide) hs hw hok ht
    exact ⟨a, ⟨b1, pre, kws, rest, b2, .inl ⟨by decide +kernel, b3, b4⟩⟩, b5⟩
  · obtain ⟨m, w, hw, hok, ht, _⟩ := seq_rule (r := .subroutine_stmt) rfl h
    obtain ⟨a, pre, kws, rest, b1, b2, b3, b4, b5⟩ := named_prefixed (by decide) (by decide) (by decide) hs hw hok ht
    exact ⟨a, ⟨b1, pre, kws, rest, b2, .inr (.inl ⟨by decide +kernel, b3, b4⟩)⟩, b5⟩
  · obtain ⟨m, w, hw, hok, ht, _⟩ := seq_rule (r := .program_stmt) rfl h
    obtain ⟨k, k1, k2, k3, _, hw⟩ := SP.seqLoop_tok (by decide) (by decide) hs hw hok
    obtain ⟨a, a1, a2, a3, a4, hw⟩ := SP.seqLoop_name (SP.goto_good hs (Nat.le_add_right _ 1) k1) hw hok
    obtain ⟨more, hm⟩ := SP.seqLoop_kids _ _ _ _ hw
    refine ⟨a, ⟨a3, [], [k], _, by rw [k2, a2]; rfl, .inr (.inr (.inl ⟨by decide +kernel, rfl, by simp [k3]⟩))⟩, ?_⟩
    · rw [hm] at ht
      exact nameOf_kids (ks := []) (k := Tag.KW_PROGRAM) (mid := []) (more := more) (b := s.pos) (by rw [ht]; simp [SNode.kids]) (.inl rfl) (by decide) (.inl rfl) a4
  · obtain ⟨m, w, hw, hok, ht, _⟩ := seq_rule (r := .mp_subprogram_stmt) rfl h
    obtain ⟨k, k1, k2, k3, _, hw⟩ := SP.seqLoop_tok (by decide) (by decide) hs hw hok
    have hs1 := SP.goto_good hs (Nat.le_add_right _ 1) k1
    obtain ⟨l, l1, l2, l3, _, hw⟩ := SP.seqLoop_tok (by decide) (by decide) hs1 hw hok
    obtain ⟨a, a1, a2, a3, a4, hw⟩ := SP.seqLoop_name (SP.goto_good hs1 (Nat.le_add_right _ 1) l1) hw hok
    obtain ⟨more, hm⟩ := SP.seqLoop_kids _ _ _ _ hw
    refine ⟨a, ⟨a3, [], [k, l], _, by rw [k2, l2, a2]; rfl, .inr (.inr (.inr ⟨by decide +kernel, rfl, by simp [k3, l3]⟩))⟩, ?_⟩
    · rw [hm] at ht
      exact nameOf_kids (ks := []) (k := Tag.KW_MODULE) (mid := [.node Tag.KW_PROCEDURE (some (s.pos + 1, s.pos + 2)) []]) (more := more) (b := s.pos) (by rw [ht]; simp [SNode.kids, Strm.goto]) (.inl rfl) (by decide) (.inr ⟨_, rfl⟩) a4

end Proc
end FLPR
