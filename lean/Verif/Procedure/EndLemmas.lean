import Verif.Procedure.EndStmt
import Verif.Procedure.NameLemmas
import Verif.Procedure.Parsed
/-!
# Lemmas for C70: the trees of the statements that end a procedure
-/

namespace FLPR
namespace SP
open Spec

theorem goto_self (s : Strm) : s.goto s.pos = s := by cases s; rfl

theorem hoist_none (acc : SNode) : hoistBack acc none = acc := by cases acc; rfl

/-- A sequence that starts with a name that may be missing. -/
theorem seqLoop_optName {x : Exts} {n : Nat} {ps : List P} {s : Strm} (hs : GoodStmt s) {t : Int} {rg : Rng} {ks : List SNode}
    {r : SNode × Bool × Strm} (h : seqLoop (eval R.body x n) (.opt .name :: ps) s (.node t rg ks) = .ok r) :
    ∃ m, n = m + 1 ∧ ((seqLoop (eval R.body x n) ps s (.node t rg ks) = .ok r) ∨
    ∃ a, s.pos < s.hi ∧ restOf s = a :: restOf (s.goto (s.pos + 1)) ∧ NameTag a.token ∧ s.all[s.pos]? = some a ∧
      seqLoop (eval R.body x n) ps (s.goto (s.pos + 1)) (.node t rg (ks ++ [.node Tag.TK_NAME (some (s.pos, s.pos + 1)) []])) = .ok r) := by
  rw [seqLoop] at h
  pbind h with o ho
  cases n with
  | zero => cases ho
  | succ n =>
  refine ⟨n, rfl, ?_⟩
  rw [eval, step] at ho
  pbind ho with o' ho'
  injection ho with ho; subst ho
  simp only [if_true] at h
  cases n with
  | zero => cases ho'
  | succ n =>
  rw [eval, step] at ho'
  have ho := up_ok ho'
  rw [runName] at ho
  rcases rest_cases hs with ⟨_, h2, h3⟩ | ⟨a, hlt, h2, h3, hlx, _, h6⟩
  · rw [h3, Res.ok_bind, isName_bad, Res.ok_bind] at ho
    injection ho with ho; subst ho
    exact .inl h
  · obtain ⟨b, hb⟩ := hlx.1
    rw [h3, Res.ok_bind, hb, Res.ok_bind] at ho
    cases b with
    | false =>
      injection ho with ho; subst ho
      exact .inl h
    | true =>
      rw [if_pos rfl] at ho
      obtain ⟨rfl, _⟩ := leaf_ok ho
      refine .inr ⟨a, hlt, h2, of_decide_eq_true (nameTag_iff hb).symm, h6, ?_⟩
      rw [hoistBack, if_neg (by decide)] at h
      exact h

/-- A sequence that starts with a keyword and a name that may be missing, which may be missing. -/
theorem seqLoop_optKw {x : Exts} {n : Nat} {kw : Int} (h1 : kw ≠ Tag.BAD) (h2 : kw ≠ Tag.HOIST) {ps : List P} {s : Strm} (hs : GoodStmt s)
    {t : Int} {rg : Rng} {ks : List SNode} {r : SNode × Bool × Strm}
    (h : seqLoop (eval R.body x n) (.opt (.seq Tag.HOIST [.tok kw, .opt .name]) :: ps) s (.node t rg ks) = .ok r) :
    seqLoop (eval R.body x n) ps s (.node t rg ks) = .ok r ∨
    ∃ a, s.pos < s.hi ∧ restOf s = a :: restOf (s.goto (s.pos + 1)) ∧ a.token = kw ∧
      (seqLoop (eval R.body x n) ps (s.goto (s.pos + 1)) (.node t rg (ks ++ [.node kw (some (s.pos, s.pos + 1)) []])) = .ok r ∨
      ∃ b, s.pos + 1 < s.hi ∧ restOf (s.goto (s.pos + 1)) = b :: restOf (s.goto (s.pos + 2)) ∧ NameTag b.token ∧ s.all[s.pos + 1]? = some b ∧
        seqLoop (eval R.body x n) ps (s.goto (s.pos + 2)) (.node t rg (ks ++ [.node kw (some (s.pos, s.pos + 1)) [],
          .node Tag.TK_NAME (some (s.pos + 1, s.pos + 2)) []])) = .ok r) := by
  rw [seqLoop] at h
  pbind h with o ho
  cases n with
  | zero => cases ho
  | succ n =>
  rw [eval, step] at ho
  pbind ho with o' ho'
  injection ho with ho; subst ho
  simp only [if_true] at h
  cases n with
  | zero => cases ho'
  | succ n =>
  rw [eval, step] at ho'
  pbind ho' with w hw
  by_cases hk : w.2.1 = true
  · rw [if_pos hk] at ho'
    pbind ho' with c hc
    injection ho' with ho'; subst ho'
    obtain ⟨c1, c2⟩ := cover_kids (up_ok hc)
    obtain ⟨a, a1, a2, a3, _, hw⟩ := seqLoop_tok h1 h2 hs hw hk
    have hh : hoistBack (.node t rg ks) (some c) = .node t rg (ks ++ w.1.kids) := by
      obtain ⟨ct, cr, cks⟩ := c
      have c2 : ct = Tag.HOIST := c2
      have c1 : cks = w.1.kids := c1
      rw [hoistBack, if_pos c2, c1]
    simp only [hh] at h
    refine .inr ⟨a, a1, a2, a3, ?_⟩
    obtain ⟨_, _, hw | ⟨b, b1, b2, b3, b4, hw⟩⟩ := seqLoop_optName (goto_good hs (Nat.le_add_right _ 1) a1) hw
    · injection hw with hw
      subst hw
      exact .inl h
    · injection hw with hw
      subst hw
      exact .inr ⟨b, b1, b2, b3, b4, h⟩
  · rw [if_neg hk] at ho'
    injection ho' with ho'; subst ho'
    simp only [hoist_none] at h
    refine .inl ?_
    have hpos : ∃ q, w.2.2 = s.goto q := by
      rw [seqLoop] at hw
      pbind hw with o ho
      cases n with
      | zero => cases ho
      | succ n =>
      rw [eval, step] at ho
      have ho := up_ok ho
      rw [runTok] at ho
      have no : o = noMatch s → ∃ q, w.2.2 = s.goto q := by
        rintro rfl
        rw [if_neg (by simp [noMatch])] at hw
        injection hw with hw; subst hw
        exact ⟨s.pos, (goto_self s).symm⟩
      rcases rest_cases hs with ⟨_, g2, g3⟩ | ⟨a, hlt, g2, g3, _, _, g6⟩
      · rw [g3, Res.ok_bind, if_pos h1] at ho
        injection ho with ho
        exact no ho.symm
      · rw [g3, Res.ok_bind] at ho
        by_cases he : kw = a.token
        · rw [if_neg (by simpa using he)] at ho
          obtain ⟨rfl, _⟩ := leaf_ok ho
          rw [if_pos rfl, hoistBack, if_neg h2] at hw
          exfalso
          apply hk
          obtain ⟨_, _, hw | ⟨b, b1, b2, b3, b4, hw⟩⟩ := seqLoop_optName (goto_good hs (Nat.le_add_right _ 1) hlt) hw
          · injection hw with hw; subst hw; rfl
          · injection hw with hw; subst hw; rfl
        · rw [if_pos he] at ho
          injection ho with ho
          exact no ho.symm
    obtain ⟨q, hq⟩ := hpos
    rw [hq] at h
    have : (s.goto q).goto s.pos = s := by cases s; rfl
    rw [this] at h
    exact h

/-- A sequence that starts with the end of the statement. -/
theorem seqLoop_eol {x : Exts} {n : Nat} {s : Strm} (hs : GoodStmt s) {acc : SNode}
    {r : SNode × Bool × Strm} (h : seqLoop (eval R.body x n) [.peek Tag.BAD] s acc = .ok r) (hr : r.2.1 = true) :
    restOf s = [] ∧ r = (acc, true, s) := by
  rw [seqLoop] at h
  pbind h with o ho
  cases n with
  | zero => cases ho
  | succ n =>
  rw [eval, step] at ho
  have ho := up_ok ho
  rw [runPeek] at ho
  rcases rest_cases hs with ⟨_, g2, g3⟩ | ⟨a, hlt, g2, g3, g4, _, g6⟩
  · rw [g3, Res.ok_bind] at ho
    injection ho with ho; subst ho
    simp only [beq_self_eq_true, if_true, hoist_none, seqLoop] at h
    injection h with h
    exact ⟨g2, h.symm⟩
  · rw [g3, Res.ok_bind] at ho
    injection ho with ho; subst ho
    have : (Tag.BAD == a.token) = false := by
      have := g4
      simp only [beq_eq_false_iff_ne]
      intro he
      rw [← he] at this
      exact absurd this (by unfold LexerTag; decide)
    rw [this] at h
    simp only [if_neg (by simp : ¬ (false = true))] at h
    injection h with h; subst h
    cases hr

end SP

namespace Proc
open PP Reg Spec
open SP (SNode R Exts Strm)

/-- The rules for the statements that end a procedure, with their keywords. -/
def endRules : List (R × Int) := [(.end_function_stmt, Tag.KW_FUNCTION), (.end_subroutine_stmt, Tag.KW_SUBROUTINE),
  (.end_program_stmt, Tag.KW_PROGRAM), (.end_mp_subprogram_stmt, Tag.KW_PROCEDURE)]

/-- The keyword of each kind of procedure, as it is behind `end`. -/
def endKw (tag : Int) : Int :=
  if tag = Tag.PG_FUNCTION_SUBPROGRAM then Tag.KW_FUNCTION
  else if tag = Tag.PG_SUBROUTINE_SUBPROGRAM then Tag.KW_SUBROUTINE
  else if tag = Tag.PG_MAIN_PROGRAM then Tag.KW_PROGRAM
  else Tag.KW_PROCEDURE

theorem endRules_only {r : R} {tag : Int} (h : (tag, r.rootTag) ∈ endPairs) : (r, endKw tag) ∈ endRules := by
  have := SP.R.forall_of (q := fun r => endPairs.all (fun e => decide (e.2 = r.rootTag → (r, endKw e.1) ∈ endRules))) (by decide +kernel) r
  exact of_decide_eq_true (List.all_eq_true.mp this _ h) rfl

/-- The tokens of a statement that ends a procedure, and its tree. -/
inductive EndTree (s : Strm) (kw : Int) (t : SNode) : Prop
  | bare (a : Tok) (h : restOf s = [a]) (ha : a.token = Tag.KW_END) (ht : t.kids = [.node Tag.KW_END (some (s.pos, s.pos + 1)) []])
  | noName (a b : Tok) (h : restOf s = [a, b]) (ha : a.token = Tag.KW_END) (hb : b.token = kw)
      (ht : t.kids = [.node Tag.KW_END (some (s.pos, s.pos + 1)) [], .node kw (some (s.pos + 1, s.pos + 2)) []])
  | full (a b c : Tok) (h : restOf s = [a, b, c]) (ha : a.token = Tag.KW_END) (hb : b.token = kw) (hc : NameTag c.token)
      (hi : s.all[s.pos + 2]? = some c)
      (ht : t.kids = [.node Tag.KW_END (some (s.pos, s.pos + 1)) [], .node kw (some (s.pos + 1, s.pos + 2)) [],
        .node Tag.TK_NAME (some (s.pos + 2, s.pos + 3)) []])

theorem end_tree {x : Exts} {n : Nat} {r : R} {kw : Int} (hr : (r, kw) ∈ endRules) {s : Strm} (hs : GoodStmt s) {t : SNode} {q : Strm}
    (h : SP.evalRule SP.R.body x n r s = .ok (some t, q)) : EndTree s kw t := by
  have main : ∀ {tag : Int} {kw : Int}, kw ≠ Tag.BAD → kw ≠ Tag.HOIST →
      SP.R.body r = .comb (.seq tag [.tok Tag.KW_END, .opt (.seq Tag.HOIST [.tok kw, .opt .name]), .peek Tag.BAD]) → EndTree s kw t := by
    intro tag kw h1 h2 hb
    obtain ⟨m, w, hw, hok, ht, _⟩ := seq_rule hb h
    obtain ⟨a, a1, a2, a3, _, hw⟩ := SP.seqLoop_tok (by decide) (by decide) hs hw hok
    have hs1 := SP.goto_good hs (Nat.le_add_right _ 1) a1
    rcases SP.seqLoop_optKw h1 h2 hs1 hw with hw | ⟨b, b1, b2, b3, hw | ⟨c, c1, c2, c3, c4, hw⟩⟩
    · obtain ⟨e1, rfl⟩ := SP.seqLoop_eol hs1 hw hok
      exact .bare a (by rw [a2, e1]) a3 (by rw [ht]; rfl)
    · obtain ⟨e1, rfl⟩ := SP.seqLoop_eol (SP.goto_good hs1 (Nat.le_add_right _ 1) b1) hw hok
      exact .noName a b (by rw [a2, b2, e1]) a3 b3 (by rw [ht]; rfl)
    · obtain ⟨e1, rfl⟩ := SP.seqLoop_eol (SP.goto_good hs1 (Nat.le_add_right _ 2) c1) hw hok
      exact .full a b c (by rw [a2, b2, c2, e1]) a3 b3 c3 c4 (by rw [ht]; rfl)
  simp only [endRules, List.mem_cons, Prod.mk.injEq, List.not_mem_nil, or_false] at hr
  rcases hr with ⟨rfl, rfl⟩ | ⟨rfl, rfl⟩ | ⟨rfl, rfl⟩ | ⟨rfl, rfl⟩
  · exact main (by decide) (by decide) rfl
  · exact main (by decide) (by decide) rfl
  · exact main (by decide) (by decide) rfl
  · exact main (by decide) (by decide) rfl

end Proc
end FLPR
