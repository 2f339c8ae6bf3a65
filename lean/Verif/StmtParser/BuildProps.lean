import Verif.StmtParser.Build
import Verif.StmtParser.ParserProps
/-!
# C72: each statement tree is one of the grammar (src/flpr/parse_stmt.cc, Stmt_Parsers.hh)
-/

namespace FLPR
namespace Spec
open SP

/-! ### Reading a tree by the grammar -/

section inv
variable {toks : List Tok} {x : Exts} {g : R → Body}

theorem builds_comb {r : R} {p : P} (hb : g r = .comb p) {f : List SNode} (h : Builds toks x g (.rule r) f) : Builds toks x g p f := by
  cases h with
  | comb h1 h2 => rw [hb] at h1; injection h1 with h1; subst h1; exact h2
  | expr h1 => rw [hb] at h1; cases h1
  | parens h1 => rw [hb] at h1; cases h1
  | listName h1 => rw [hb] at h1; cases h1
  | designator h1 => rw [hb] at h1; cases h1
  | withExts h1 => rw [hb] at h1; cases h1
  | ext h1 => rw [hb] at h1; cases h1

theorem builds_designator {r : R} {p : P} (hb : g r = .procDesignator p) {f : List SNode} (h : Builds toks x g (.rule r) f) :
    Builds toks x g p f := by
  cases h with
  | comb h1 h2 => rw [hb] at h1; cases h1
  | expr h1 => rw [hb] at h1; cases h1
  | parens h1 => rw [hb] at h1; cases h1
  | listName h1 => rw [hb] at h1; cases h1
  | designator h1 h2 => rw [hb] at h1; injection h1 with h1; subst h1; exact h2
  | withExts h1 => rw [hb] at h1; cases h1
  | ext h1 => rw [hb] at h1; cases h1

theorem builds_expr {r : R} {tag : Int} {p : P} (hb : g r = .expr tag p) {f : List SNode} (h : Builds toks x g (.rule r) f) :
    ∃ rg ks, f = [.node tag rg ks] ∧ ks ≠ [] ∧ BuildsExpr toks x g p ks := by
  cases h with
  | comb h1 h2 => rw [hb] at h1; cases h1
  | expr h1 h2 h3 => rw [hb] at h1; injection h1 with h1 h4; subst h1; subst h4; exact ⟨_, _, rfl, h2, h3⟩
  | parens h1 => rw [hb] at h1; cases h1
  | listName h1 => rw [hb] at h1; cases h1
  | designator h1 => rw [hb] at h1; cases h1
  | withExts h1 => rw [hb] at h1; cases h1
  | ext h1 => rw [hb] at h1; cases h1

theorem builds_withExts {r : R} {a : Bool} {p : P} (hb : g r = .withExts a p) {f : List SNode} (h : Builds toks x g (.rule r) f) :
    Builds toks x g p f ∨ ∃ t rg, FromExt x a t ∧ f = [.node (extTag a) rg (spread (some t))] := by
  cases h with
  | comb h1 h2 => rw [hb] at h1; cases h1
  | expr h1 => rw [hb] at h1; cases h1
  | parens h1 => rw [hb] at h1; cases h1
  | listName h1 => rw [hb] at h1; cases h1
  | designator h1 => rw [hb] at h1; cases h1
  | withExts h1 h2 => rw [hb] at h1; injection h1 with h1 h3; subst h3; exact .inl h2
  | ext h1 h2 => rw [hb] at h1; injection h1 with h1 h3; subst h1; exact .inr ⟨_, _, h2, rfl⟩

theorem builds_seq {tag : Int} {ps : List P} {f : List SNode} (h : Builds toks x g (.seq tag ps) f) :
    ∃ r ks, f = putUnder tag r ks ∧ BuildsSeq toks x g ps ks := by
  cases h with | seq h => exact ⟨_, _, rfl, h⟩

theorem builds_hoist {ps : List P} {f : List SNode} (h : Builds toks x g (.seq Tag.HOIST ps) f) : BuildsSeq toks x g ps f := by
  obtain ⟨r, ks, rfl, h'⟩ := builds_seq h
  exact h'

theorem builds_node {tag : Int} (ht : tag ≠ Tag.HOIST) {ps : List P} {f : List SNode} (h : Builds toks x g (.seq tag ps) f) :
    ∃ r ks, f = [.node tag r ks] ∧ BuildsSeq toks x g ps ks := by
  obtain ⟨r, ks, rfl, h'⟩ := builds_seq h
  exact ⟨r, ks, if_neg ht, h'⟩

theorem builds_alts {tag : Int} {ps : List P} {f : List SNode} (h : Builds toks x g (.alts tag ps) f) :
    ∃ r ks, f = putUnder tag r ks ∧ ∃ p ∈ ps, Builds toks x g p ks := by
  cases h with | alts h1 h2 => exact ⟨_, _, rfl, _, h1, h2⟩

theorem builds_tagIf {tag : Int} {p : P} {f : List SNode} (h : Builds toks x g (.tagIf tag p) f) :
    ∃ r ks, f = putUnder tag r ks ∧ Builds toks x g p ks := by
  cases h with | tagIf h => exact ⟨_, _, rfl, h⟩

theorem builds_tok {t : Int} {f : List SNode} (h : Builds toks x g (.tok t) f) : ∃ i a, f = [leafAt t i] ∧ toks[i]? = some a ∧ a.token = t := by
  cases h with | tok h1 h2 => exact ⟨_, _, rfl, h1, h2⟩

theorem builds_name {f : List SNode} (h : Builds toks x g .name f) : ∃ i a, f = [leafAt Tag.TK_NAME i] ∧ toks[i]? = some a ∧ NameTag a.token := by
  cases h with | name h1 h2 => exact ⟨_, _, rfl, h1, h2⟩

theorem builds_opt {p : P} {f : List SNode} (h : Builds toks x g (.opt p) f) : f = [] ∨ Builds toks x g p f := by
  cases h with
  | optNo => exact .inl rfl
  | opt h => exact .inr h

theorem builds_peek {t : Int} {f : List SNode} (h : Builds toks x g (.peek t) f) : f = [] := by
  cases h with | peek => rfl

theorem builds_neg {p : P} {f : List SNode} (h : Builds toks x g (.neg p) f) : f = [] := by
  cases h with | neg => rfl

theorem builds_star {p : P} {f : List SNode} (h : Builds toks x g (.star p) f) : BuildsRep toks x g p f := by
  cases h with | star h => exact h

theorem buildsSeq_nil {f : List SNode} (h : BuildsSeq toks x g [] f) : f = [] := by
  cases h with | nil => rfl

theorem buildsSeq_cons {p : P} {ps : List P} {f : List SNode} (h : BuildsSeq toks x g (p :: ps) f) :
    ∃ a b, f = a ++ b ∧ Builds toks x g p a ∧ BuildsSeq toks x g ps b := by
  cases h with | cons h1 h2 => exact ⟨_, _, rfl, h1, h2⟩

theorem buildsSeq_append : ∀ {ps qs : List P} {f : List SNode}, BuildsSeq toks x g (ps ++ qs) f →
    ∃ a b, f = a ++ b ∧ BuildsSeq toks x g ps a ∧ BuildsSeq toks x g qs b
  | [], _, _, h => ⟨[], _, rfl, .nil, h⟩
  | p :: ps, qs, f, h => by
    obtain ⟨a, b, rfl, h1, h2⟩ := buildsSeq_cons h
    obtain ⟨c, d, rfl, h3, h4⟩ := buildsSeq_append h2
    exact ⟨a ++ c, d, by simp, .cons h1 h3, h4⟩

theorem buildsRep_list {p : P} : ∀ {f : List SNode}, BuildsRep toks x g p f → ∃ fs : List (List SNode), f = fs.flatten ∧ ∀ a ∈ fs, Builds toks x g p a
  | _, .nil => ⟨[], rfl, by simp⟩
  | _, .cons (f := f1) h1 h2 => by
    obtain ⟨fs, rfl, h3⟩ := buildsRep_list h2
    refine ⟨f1 :: fs, rfl, ?_⟩
    intro a ha
    rcases List.mem_cons.mp ha with rfl | ha
    · exact h1
    · exact h3 a ha

end inv

end Spec

namespace SP
open Spec

/-- C72: the tree that a statement parser returns is one of the grammar: under its root are the branches that the body
of the parser calls for, each of them again by the grammar, and each leaf that stands for a given token, a name or a word
is a token of that kind of the line.  Whatever the statement and whatever extensions are registered. -/
theorem C72_builds (x : Exts) (r : R) (s q : Strm) (t : SNode) (h : Returns x r s (.ok (some t, q))) :
    Builds s.all x R.body (.rule r) (spread (some t)) := by
  obtain ⟨n, h⟩ := h.eval
  exact rule_builds h rfl

/-- C72 for `parse_stmt_dispatch`. -/
theorem C72_dispatch (x : Exts) (tag : Int) (s q : Strm) (t : SNode) (h : DispatchReturns x tag s (.ok (some t, q))) :
    ∃ r, (tag, r) ∈ dispatchTable ∧ Builds s.all x R.body (.rule r) (spread (some t)) := by
  rw [dispatch_iff] at h
  cases hq : dispatchTable.find? (fun q => q.1 == tag) with
  | some w =>
    rw [hq] at h
    have h1 := List.mem_of_find?_eq_some hq
    have h2 := List.find?_some hq
    refine ⟨w.2, ?_, C72_builds x w.2 s q t h⟩
    rw [show tag = w.1 by simpa using Eq.symm (beq_iff_eq.mp h2)]
    exact h1
  | none => rw [hq] at h; cases h

/-- What the cursors of an application find in the tree of a call: the keyword, the procedure, then nothing or the
arguments in parentheses. -/
theorem C72_call (x : Exts) (s q : Strm) (t : SNode) (h : Returns x .call_stmt s (.ok (some t, q))) :
    ∃ i d args, t.tag = Tag.SG_CALL_STMT ∧ t.kids = leafAt Tag.KW_CALL i :: d :: args ∧ d.tag = Tag.SG_PROCEDURE_DESIGNATOR ∧
      (∃ pre j a, d.kids = pre ++ [leafAt Tag.TK_NAME j] ∧ s.all[j]? = some a ∧ NameTag a.token ∧
        (pre = [] ∨ ∃ p ks m, pre = p :: ks ++ [leafAt Tag.TK_PERCENT m] ∧ p.tag = Tag.SG_PART_REF)) ∧
      (args = [] ∨ ∃ l mid m, args = leafAt Tag.TK_PARENL l :: (mid ++ [leafAt Tag.TK_PARENR m])) := by
  have hb := builds_comb (p := _) rfl (C72_builds x _ s q t h)
  obtain ⟨r, ks, ht, hb⟩ := builds_node (by decide) hb
  obtain ⟨a1, b1, rfl, h1, hb⟩ := buildsSeq_cons hb
  obtain ⟨a2, b2, rfl, h2, hb⟩ := buildsSeq_cons hb
  obtain ⟨a3, b3, rfl, h3, hb⟩ := buildsSeq_cons hb
  obtain ⟨a4, b4, rfl, h4, hb⟩ := buildsSeq_cons hb
  cases buildsSeq_nil hb
  cases builds_peek h4
  obtain ⟨i, a, rfl, -, -⟩ := builds_tok h1
  obtain ⟨r2, k2, rfl, h5⟩ := builds_node (by decide) (builds_designator rfl h2)
  have htt : t.tag = Tag.SG_CALL_STMT := by
    obtain ⟨n, h⟩ := h.eval
    have := runBody_tag (eval_tag (x := x) grammar_rootTag n) (grammar_rootTag .call_stmt) h rfl
    rw [this]; decide +kernel
  rw [spread, if_neg (by rw [htt]; decide)] at ht
  injection ht with ht
  subst ht
  refine ⟨i, .node Tag.SG_PROCEDURE_DESIGNATOR r2 k2, a3, rfl, by simp [SNode.kids], rfl, ?_, ?_⟩
  · obtain ⟨c1, d1, rfl, g1, h6⟩ := buildsSeq_cons h5
    obtain ⟨c2, d2, rfl, g2, h7⟩ := buildsSeq_cons h6
    obtain ⟨c3, d3, rfl, g3, h8⟩ := buildsSeq_cons h7
    cases buildsSeq_nil h8
    cases builds_peek g3
    obtain ⟨j, b, rfl, hj, hn⟩ := builds_name g2
    refine ⟨c1, j, b, by simp [SNode.kids], hj, hn, ?_⟩
    rcases builds_opt g1 with rfl | g1
    · exact .inl rfl
    · obtain ⟨e1, e2, rfl, g5, g4⟩ := buildsSeq_cons (builds_hoist g1)
      cases buildsSeq_nil g4
      have key : ∀ f, BuildsRep s.all x R.body (.seq Tag.HOIST [.rule .part_ref, .tok Tag.TK_PERCENT]) f →
          f = [] ∨ ∃ p ks m, f = p :: ks ++ [leafAt Tag.TK_PERCENT m] ∧ p.tag = Tag.SG_PART_REF := by
        have one : ∀ f, Builds s.all x R.body (.seq Tag.HOIST [.rule .part_ref, .tok Tag.TK_PERCENT]) f →
            ∃ p m, f = [p, leafAt Tag.TK_PERCENT m] ∧ p.tag = Tag.SG_PART_REF := by
          intro f hf
          obtain ⟨e1, e2, rfl, g1, g2⟩ := buildsSeq_cons (builds_hoist hf)
          obtain ⟨e3, e4, rfl, g3, g4⟩ := buildsSeq_cons g2
          cases buildsSeq_nil g4
          obtain ⟨m, _, rfl, -, -⟩ := builds_tok g3
          obtain ⟨r, ks, rfl, -⟩ := builds_node (by decide) (builds_comb rfl g1)
          exact ⟨_, m, rfl, rfl⟩
        intro f hf
        obtain ⟨fs, rfl, hfs⟩ := buildsRep_list hf
        rcases List.eq_nil_or_concat fs with rfl | ⟨fs', l, rfl⟩
        · exact .inl rfl
        · right
          obtain ⟨p, m, rfl, hp⟩ := one l (hfs l (by simp))
          cases fs' with
          | nil => exact ⟨p, [], m, by simp, hp⟩
          | cons l' fs' =>
            obtain ⟨p', m', rfl, hp'⟩ := one l' (hfs l' (by simp))
            exact ⟨p', leafAt Tag.TK_PERCENT m' :: (fs'.flatten ++ [p]), m, by simp, hp'⟩
      rw [List.append_nil]
      exact key _ (builds_star g5)
  · rcases builds_opt h3 with rfl | h3
    · exact .inl rfl
    · obtain ⟨c1, d1, rfl, g1, g4⟩ := buildsSeq_cons (builds_hoist h3)
      obtain ⟨c2, d2, rfl, g2, g5⟩ := buildsSeq_append (ps := [_]) g4
      obtain ⟨c3, d3, rfl, g3, g6⟩ := buildsSeq_cons g5
      cases buildsSeq_nil g6
      obtain ⟨l, _, rfl, -, -⟩ := builds_tok g1
      obtain ⟨m, _, rfl, -, -⟩ := builds_tok g3
      exact .inr ⟨l, c2, m, by simp⟩

/-- C72 applies to `call x%y(a, b)`. -/
example : ∃ t q, Returns noExts .call_stmt (lineOf callStmt) (.ok (some t, q)) ∧
    Builds (lineOf callStmt).all noExts R.body (.rule .call_stmt) (spread (some t)) := by
  obtain ⟨t, s', h1, h2⟩ := returns_of_holds (x := noExts) (r := .call_stmt)
    (s := lineOf callStmt) (q := fun t _ => t.isSome) 40 (by decide +kernel)
  obtain ⟨n, rfl⟩ := Option.isSome_iff_exists.mp h2
  exact ⟨n, s', h1, C72_builds noExts _ _ _ _ h1⟩

/-- Not every tree is one of the grammar: a call has at least two branches. -/
example (toks : List Tok) (x : Exts) (t : SNode) : ¬ Builds toks x R.body (.rule .call_stmt) [.node Tag.SG_CALL_STMT none [t]] := by
  intro h
  obtain ⟨r, ks, ht, hb⟩ := builds_node (by decide) (builds_comb (p := _) rfl h)
  obtain ⟨a1, b1, rfl, h1, hb1⟩ := buildsSeq_cons hb
  obtain ⟨a2, b2, rfl, h2, -⟩ := buildsSeq_cons hb1
  obtain ⟨i, a, rfl, -, -⟩ := builds_tok h1
  obtain ⟨r2, k2, rfl, -⟩ := builds_node (by decide) (builds_designator rfl h2)
  simp at ht

end SP
end FLPR
