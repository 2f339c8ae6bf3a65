import Verif.Procedure.EndLemmas
import Verif.Procedure.NameProps
import Verif.LogicalFile.StmtEditText
import Verif.LogicalLine.EditProps
/-!
# C70: completing the last statement of a procedure, and renaming a procedure (src/flpr/Procedure.hh)
-/

namespace FLPR
namespace Spec
open Proc PP
open SP (Exts)

/-- The word for a kind of procedure, and its keyword. -/
def kindWord (tag : Int) : Option (Str × Int) :=
  if tag = Tag.PG_FUNCTION_SUBPROGRAM then some ("function".toList, Tag.KW_FUNCTION)
  else if tag = Tag.PG_SUBROUTINE_SUBPROGRAM then some ("subroutine".toList, Tag.KW_SUBROUTINE)
  else if tag = Tag.PG_SEPARATE_MODULE_SUBPROGRAM then some ("procedure".toList, Tag.KW_PROCEDURE)
  else if tag = Tag.PG_MAIN_PROGRAM then some ("program".toList, Tag.KW_PROGRAM)
  else none

/-- `p` is the procedure that `ingest` made of the node `n` of the tree of a parsed list of statements; the statements
right below `n`, which are the first and the last, have properly nested parentheses. -/
structure OfParse (x : Exts) (s : PState) (o : POut) (n : PNode) (p : Procd) : Prop where
  fwd : x.Forward
  need : NeedToken x
  full : Full s
  parse : ∃ r, PReturns x r s (.ok o)
  ok : o.ok = true
  node : ∃ t, o.tree = some t ∧ n ∈ nodesOf t
  kind : n.tag ∈ procTags
  taken : ∃ p0, ingest p0 n = .ok (true, p)
  regions : Ingested s.stmts.length n p
  nested : ∀ k ∈ n.kids, ∀ j st, k.stmt = some j → s.stmts[j]? = some st → GoodStmt st.strm

/-- The name of the procedure of `n`, by its first statement; a main program may have none. -/
def ProcName (s : PState) (n : PNode) (name : Option Str) : Prop :=
  (name = none ∧ n.tag = Tag.PG_MAIN_PROGRAM ∧ ∀ k ∈ n.kids.head?, k.tag ≠ Tag.SG_PROGRAM_STMT) ∨
  ∃ k j st a, n.kids.head? = some k ∧ k.stmt = some j ∧ s.stmts[j]? = some st ∧ Named k.tag (restOf st.strm) a ∧ name = some a.text

/-- `w` is what is missing at the end of the tokens `ts` of the last statement of a procedure with the given word,
keyword and name, for it to read `end <word> <name>`. -/
def Missing (word : Str) (kw : Int) (name : Option Str) (ts : List Tok) (w : Str) : Prop :=
  (ts.map (·.token) = [Tag.KW_END] ∧ w = " ".toList ++ word ++ " ".toList ++ name.getD []) ∨
  (ts.map (·.token) = [Tag.KW_END, kw] ∧ w = name.elim [] (" ".toList ++ ·)) ∨
  (w = [] ∧ ∃ a, NameTag a ∧ ts.map (·.token) = [Tag.KW_END, kw, a])

/-- The token `i` of line `q` has been replaced by the name `new`: in the text only its stretch changes, the other tokens
and lines stay, and all tokens have their places again. -/
def Replaced (fl fl' : LFile) (q i : Nat) (new : Str) : Prop :=
  ∃ l l' t, fl.lines[q]? = some l ∧ l.frags[i]? = some t ∧ fl' = { fl with lines := fl.lines.set q l' } ∧
    (∃ (L : Nat) (f : FileLine) (a b : Str), l.layout[L]? = some f ∧ f.main_txt = a ++ t.text ++ b ∧
      (∀ sp, t.span = some sp → sp.bl = L ∧ sp.bc = a.length) ∧ l'.layout = l.layout.set L { f with main_txt := a ++ new ++ b }) ∧
    l'.frags.length = l.frags.length ∧ (∃ t', l'.frags[i]? = some t' ∧ t'.token = Tag.TK_NAME ∧ t'.text = new ∧ t'.span = t.span) ∧
    (∀ (j : Nat) u, j ≠ i → l.frags[j]? = some u → ∃ u', l'.frags[j]? = some u' ∧ SameToken u u' ∧ (OnOneLine u → OnOneLine u')) ∧
    GoodPositions l'.layout l'.frags ∧ l'.stmts = l.stmts ∧ l'.semis = l.semis ∧ l'.label = l.label

/-- The statements that the parser sees are those of the file. -/
def Linked (s : PState) (fl : LFile) : Prop := s.stmts = fl.stmts.map (fun x => PF.stmtView fl.lines x.s)

/-- What the parser sees of the statements, after the file has been edited. -/
def relink (s : PState) (fl : LFile) : PState := { s with stmts := fl.stmts.map (fun x => PF.stmtView fl.lines x.s) }

end Spec

namespace Proc
open PP Reg Spec
open SP (SNode R Exts Strm)

theorem endPairs_kind {tag e : Int} (h : (tag, e) ∈ endPairs) : ∃ word, kindWord tag = some (word, endKw tag) ∧
    suffixWord tag = " ".toList ++ word ++ " ".toList := by
  simp only [endPairs, List.mem_cons, Prod.mk.injEq, List.not_mem_nil, or_false] at h
  rcases h with ⟨rfl, _⟩ | ⟨rfl, _⟩ | ⟨rfl, _⟩ | ⟨rfl, _⟩
  · exact ⟨_, rfl, by decide⟩
  · exact ⟨_, rfl, by decide⟩
  · exact ⟨_, rfl, by decide⟩
  · exact ⟨_, rfl, by decide⟩

theorem _root_.FLPR.Spec.OfParse.ends {x : Exts} {s : PState} {o : POut} {n : PNode} {p : Procd} (h : OfParse x s o n p) : Ends x s o.s n p := by
  obtain ⟨r, h1⟩ := h.parse
  obtain ⟨t, h2, h3⟩ := h.node
  obtain ⟨p0, h4⟩ := h.taken
  exact ends_of h.fwd h.need h.full h1 h.ok h2 h3 h.kind h4 h.regions

theorem _root_.FLPR.Spec.OfParse.stmts {x : Exts} {s : PState} {o : POut} {n : PNode} {p : Procd} (h : OfParse x s o n p) : o.s.stmts = s.stmts := by
  obtain ⟨r, h1⟩ := h.parse
  exact (run_atts h1).1.stmts

/-- What is known of the first statement. -/
theorem first_of {x : Exts} {s : PState} {o : POut} {n : PNode} {p : Procd} (h : OfParse x s o n p) :
    (p.headless = .ok true ∧ p.name o.s = .ok [] ∧ ProcName s n none) ∨
    (p.headless = .ok false ∧ ∃ j st tr a, p.stmtAt PROC_BEGIN = .ok j ∧ s.stmts[j]? = some st ∧ o.s.treeOf j = some tr ∧
      GoodStmt st.strm ∧ NameAt st.strm.all tr a ∧ NameTag a.token ∧ p.name o.s = .ok a.text ∧ ProcName s n (some a.text)) := by
  have he := h.ends
  have hstm := h.stmts
  rcases he.first with ⟨h1, h2, h3⟩ | ⟨h1, k, j, k1, k2, k3, kp, k4, st, tr, r', q, a1, a2, a3, a4⟩
  · refine .inl ⟨h3, ?_, .inl ⟨rfl, h1, h2⟩⟩
    rw [Procd.name, he.full, Res.ok_bind, if_neg (by simp), h3, Res.ok_bind, if_pos rfl]
  · have a1' := a1
    rw [hstm] at a1
    have hk : k ∈ n.kids := List.mem_of_head? k1
    have hgood := h.nested k hk j st k2 a1
    obtain ⟨m, hev⟩ := a3.eval
    rw [a4] at k3
    obtain ⟨a, b1, b2⟩ := begin_name (beginRules_only k3) hgood hev
    refine .inr ⟨h1, j, st, tr, a, k4, a1, a2, hgood, b2, b1.1, ?_, .inr ⟨k, j, st, a, k1, k2, a1, by rw [a4]; exact b1, rfl⟩⟩
    rw [Procd.name, he.full, Res.ok_bind, if_neg (by simp), h1, Res.ok_bind, if_neg (by simp), k4, Res.ok_bind, stmtTree, a1', a2]
    exact nameAt_of b2

/-- What is known of the last statement. -/
theorem last_of {x : Exts} {s : PState} {o : POut} {n : PNode} {p : Procd} (h : OfParse x s o n p) :
    ∃ j st tr word, p.stmtAt PROC_END = .ok j ∧ s.stmts[j]? = some st ∧ o.s.treeOf j = some tr ∧ GoodStmt st.strm ∧
      kindWord n.tag = some (word, endKw n.tag) ∧ suffixWord p.tag = " ".toList ++ word ++ " ".toList ∧ EndTree st.strm (endKw n.tag) tr := by
  have he := h.ends
  obtain ⟨j, k, k1, k2, k3, k4, st, tr, r, q, a1, a2, a3, a4⟩ := he.last
  rw [h.stmts] at a1
  have hgood := h.nested k k1 j st k2 a1
  obtain ⟨word, w1, w2⟩ := endPairs_kind k3
  obtain ⟨m, hev⟩ := a3.eval
  rw [a4] at k3
  exact ⟨j, st, tr, word, k4, a1, a2, hgood, w1, by rw [he.tag]; exact w2, end_tree (endRules_only k3) hgood hev⟩

/-- The text that `complete_end_stmt` finds to be missing. -/
theorem suffix_of {x : Exts} {s : PState} {o : POut} {n : PNode} {p : Procd} (h : OfParse x s o n p) :
    ∃ j st word kw name w, p.stmtAt PROC_END = .ok j ∧ s.stmts[j]? = some st ∧ kindWord n.tag = some (word, kw) ∧ ProcName s n name ∧
      p.name o.s = .ok (name.getD []) ∧ p.suffix o.s = .ok w ∧ Missing word kw name (restOf st.strm) w := by
  obtain ⟨j, st, tr, word, h1, h2, h3, h4, h5, h6, h7⟩ := last_of h
  obtain ⟨name, n1, n2, n3⟩ : ∃ name, ProcName s n name ∧ p.name o.s = .ok (name.getD []) ∧ p.headless = .ok (decide (name = none)) := by
    rcases first_of h with ⟨a1, a2, a3⟩ | ⟨a1, j, st, tr, a, _, _, _, _, _, _, a2, a3⟩
    · exact ⟨none, a3, a2, a1⟩
    · exact ⟨_, a3, a2, a1⟩
  have htree : stmtTree o.s j = .ok (st.strm.all, tr) := by rw [stmtTree, h.stmts, h2, h3]
  refine ⟨j, st, word, endKw n.tag, name, ?_⟩
  have hsw : suffixWord p.tag ≠ [] := by rw [h6]; simp
  rcases h7 with ⟨a, h8, ha, ht⟩ | ⟨a, b, h8, ha, hb, ht⟩ | ⟨a, b, c, h8, ha, hb, hc, hi, ht⟩
  · refine ⟨_, h1, h2, h5, n1, n2, ?_, .inl ⟨by rw [h8]; simp [ha], rfl⟩⟩
    rw [Procd.suffix, h1, Res.ok_bind, htree, Res.ok_bind, Cur.down, ht]
    simp only [Res.ok_bind]
    rw [if_neg (by simp [SNode.tag]), if_neg hsw, n2, Res.ok_bind, h6]
  · refine ⟨_, h1, h2, h5, n1, n2, ?_, .inr (.inl ⟨by rw [h8]; simp [ha, hb], rfl⟩)⟩
    rw [Procd.suffix, h1, Res.ok_bind, htree, Res.ok_bind, Cur.down, ht]
    simp only [Res.ok_bind]
    rw [if_neg (by simp [SNode.tag]), n3, Res.ok_bind]
    cases name with
    | none => rfl
    | some nm =>
      rw [if_neg (by simp), n2]
      rfl
  · refine ⟨_, h1, h2, h5, n1, n2, ?_, .inr (.inr ⟨rfl, c.token, hc, by rw [h8]; simp [ha, hb]⟩)⟩
    rw [Procd.suffix, h1, Res.ok_bind, htree, Res.ok_bind, Cur.down, ht]
    simp only [Res.ok_bind]
    rw [if_neg (by simp [SNode.tag])]

/-- C70: `complete_end_stmt` finds what is missing in the last statement.  If nothing is, it returns `false` and changes
nothing.  Else it returns `true`, and has appended it to the last statement, in a line of its own, as
`Logical_Line::insert_text_before` does it; all other statements stay.  Missing: what C69 leaves out, and that the
tokens of the new text are those of its words. -/
theorem C70_complete_partial (x : Exts) (s : PState) (o : POut) (n : PNode) (p : Procd) (h : OfParse x s o n p) (fl : LFile)
    (ht : Tidy fl) (hl : fl.stmts.length = s.stmts.length) (hsafe : ∀ j, p.stmtAt PROC_END = .ok j → LabelSafe fl j) (st : Flex.State) :
    ∃ j e word kw name w, p.stmtAt PROC_END = .ok j ∧ s.stmts[j]? = some e ∧ kindWord n.tag = some (word, kw) ∧ ProcName s n name ∧
      Missing word kw name (restOf e.strm) w ∧
      (w = [] → p.completeEnd st o.s fl = .ok (false, fl, p, st)) ∧
      ∀ b fl' p' st', w ≠ [] → p.completeEnd st o.s fl = .ok (b, fl', p', st') → b = true ∧ p' = { p with dirty := true } ∧
        ∃ y l l' r, fl.stmts[j]? = some y ∧ l.stmts = [r] ∧ l.insertBefore st r.2 w = .ok (l', st') ∧ StmtChanged fl fl' j l l' y.tag := by
  obtain ⟨j, e, word, kw, name, w, h1, h2, h3, h4, h5, h6, h7⟩ := suffix_of h
  refine ⟨j, e, word, kw, name, w, h1, h2, h3, h4, h7, ?_, ?_⟩
  · rintro rfl
    rw [Procd.completeEnd, h6, Res.ok_bind, if_pos rfl]
  · intro b fl' p' st' hw hc
    rw [Procd.completeEnd, h6, Res.ok_bind, if_neg hw, h1, Res.ok_bind] at hc
    rbind hc with f hf
    injection hc with hc
    simp only [Prod.mk.injEq] at hc
    obtain ⟨rfl, rfl, rfl, rfl⟩ := hc
    obtain ⟨y, hy⟩ : ∃ y, fl.stmts[j]? = some y := by
      have := (List.getElem?_eq_some_iff.mp h2).1
      exact ⟨_, List.getElem?_eq_getElem (by omega)⟩
    obtain ⟨f1, f2⟩ := f
    obtain ⟨l, l', r, c1, c2, c3⟩ := C64_append_text st f2 fl f1 j w y ht (hsafe j h1) hy hf
    exact ⟨rfl, rfl, y, l, l', r, hy, c1, c2, c3⟩

theorem replaceIn_ok {fl : LFile} {j i q : Nat} {y : FStmt} {l : LLine} {t : Tok} (new : Str) (hy : fl.stmts[j]? = some y)
    (hq : y.s.line = some q) (hl : fl.lines[q]? = some l) (ht : l.frags[i]? = some t) (h1 : OnOneLine t)
    (hg : GoodPositions l.layout l.frags) : ∃ fl', replaceIn fl j i Tag.TK_NAME new = .ok fl' ∧ Replaced fl fl' q i new := by
  obtain ⟨l', e1, ⟨L, bc, f, a, b, f1, f2, f3, f4, f5⟩, e3, ⟨t', t1, t2, t3, _, t4⟩, e5, e6, e7, e8, e9⟩ :=
    C42_replace_partial l i t Tag.TK_NAME new hg ht h1
  refine ⟨{ fl with lines := fl.lines.set q l' }, ?_, l, l', t, hl, ht, rfl, ⟨L, f, a, b, f1, f2, ?_, f4⟩, e3, ⟨t', t1, t2, t3, t4⟩, ?_, e6, e7, e8, e9⟩
  · rw [replaceIn, LFile.stmtAt, hy]
    simp only [Res.ok_bind]
    rw [LFile.lineOf, FStmt.it, hq]
    simp only [Res.ok_bind, hl, e1]
  · intro sp hsp
    rw [f3]
    exact f5 sp hsp
  · intro k u hk hu
    obtain ⟨u', u1, u2, _, u3⟩ := e5 k u hk hu
    exact ⟨u', u1, u2, u3⟩

/-- What is known of a token of the file after the replacement of another one, or of the same. -/
theorem replaced_tok {fl fl' : LFile} {q i : Nat} {new : Str} (h : Replaced fl fl' q i new) {q' i' : Nat} {l : LLine} {t : Tok}
    (hl : fl.lines[q']? = some l) (ht : l.frags[i']? = some t) (h1 : OnOneLine t) (hg : GoodPositions l.layout l.frags) :
    ∃ l' t', fl'.lines[q']? = some l' ∧ l'.frags[i']? = some t' ∧ OnOneLine t' ∧ GoodPositions l'.layout l'.frags ∧ (t.text = new → t'.text = new) := by
  obtain ⟨l0, l', t0, e1, e2, rfl, _, _, ⟨t', t1, t2, t3, t4⟩, e5, e6, _⟩ := h
  by_cases hq : q' = q
  · subst hq
    rw [e1] at hl
    obtain rfl := Option.some.inj hl
    have hset : (fl.lines.set q' l')[q']? = some l' := List.getElem?_set_self (List.getElem?_eq_some_iff.mp e1).1
    by_cases hi : i' = i
    · subst hi
      rw [e2] at ht
      obtain rfl := Option.some.inj ht
      exact ⟨l', t', hset, t1, fun sp hsp => h1 sp (by rw [← t4]; exact hsp), e6, fun _ => t3⟩
    · obtain ⟨u', u1, u2, u3⟩ := e5 i' t hi ht
      exact ⟨l', u', hset, u1, u3 h1, e6, fun h => by rw [u2.2.2.2.1, h]⟩
  · exact ⟨l, t, by rw [← hl]; exact List.getElem?_set_ne (Ne.symm hq), ht, h1, hg, id⟩

theorem replaced_stmts {fl fl' : LFile} {q i : Nat} {new : Str} (h : Replaced fl fl' q i new) : fl'.stmts = fl.stmts := by
  obtain ⟨l0, l', t0, e1, e2, rfl, _⟩ := h
  rfl

/-- The token that has been replaced. -/
theorem replaced_now {fl fl' : LFile} {q i : Nat} {new : Str} (h : Replaced fl fl' q i new) :
    ∃ l l' t, fl.lines[q]? = some l ∧ fl'.lines[q]? = some l' ∧ l.frags[i]? = some t ∧ (∃ t', l'.frags[i]? = some t' ∧ t'.text = new ∧
      (OnOneLine t → OnOneLine t')) ∧ GoodPositions l'.layout l'.frags := by
  obtain ⟨l0, l', t0, e1, e2, rfl, _, _, ⟨t', t1, t2, t3, t4⟩, e5, e6, _⟩ := h
  exact ⟨l0, l', t0, e1, List.getElem?_set_self (List.getElem?_eq_some_iff.mp e1).1, e2,
    ⟨t', t1, t3, fun h sp hsp => h sp (by rw [← t4]; exact hsp)⟩, e6⟩

theorem view_all {lines : List LLine} {y : LLStmt} {q : Nat} {r : Nat × Nat} {l : LLine} (h1 : y.line = some q) (h2 : y.range = some r)
    (h3 : lines[q]? = some l) : PF.stmtView lines y = ⟨y.label, Strm.mk' l.frags r.1 r.2⟩ := by
  rw [PF.stmtView, h1, h2]
  simp only [h3]

/-- C70: `rename` of a procedure that has a first statement, to another name, replaces the name in its first statement,
and the name in its last statement if there is one, and no other token; after it, `name()` is the new name.  Missing:
what C69 leaves out, names that are split over two lines (an assertion fails), and main programs without a first
statement (`C70_violation_headless`). -/
theorem C70_rename_partial (x : Exts) (s : PState) (o : POut) (n : PNode) (p : Procd) (h : OfParse x s o n p) (fl : LFile)
    (ht : Tidy fl) (hlink : Linked s fl) (hg : ∀ l ∈ fl.lines, GoodPositions l.layout l.frags)
    (hone : ∀ l ∈ fl.lines, ∀ t ∈ l.frags, NameTag t.token → OnOneLine t) (hh : p.headless = .ok false) (new : Str)
    (hnew : p.name o.s ≠ .ok new) (mk : Str → Res LLine) :
    ∃ fl1 fl' k j y st q i l a, p.rename mk o.s fl new = .ok (true, fl', { p with dirty := true }) ∧
      (n.kids.head? = some k ∧ k.stmt = some j ∧ fl.stmts[j]? = some y ∧ s.stmts[j]? = some st ∧ y.s.line = some q ∧ fl.lines[q]? = some l ∧
        l.frags[i]? = some a ∧ Named k.tag (restOf st.strm) a) ∧ Replaced fl fl1 q i new ∧
      (∃ j' e y' q' r', p.stmtAt PROC_END = .ok j' ∧ s.stmts[j']? = some e ∧ fl.stmts[j']? = some y' ∧ y'.s.line = some q' ∧ y'.s.range = some r' ∧
        (((restOf e.strm).length ≤ 2 ∧ fl' = fl1) ∨ ((restOf e.strm).length = 3 ∧ Replaced fl1 fl' q' (r'.1 + 2) new))) ∧
      p.name (relink o.s fl') = .ok new := by
  have place : ∀ {j : Nat} {st : LStmt}, s.stmts[j]? = some st → ∃ y q r l, fl.stmts[j]? = some y ∧ y.s.line = some q ∧ y.s.range = some r ∧
      fl.lines[q]? = some l ∧ st = ⟨y.s.label, Strm.mk' l.frags r.1 r.2⟩ := by
    intro j st hst
    rw [hlink, List.getElem?_map] at hst
    obtain ⟨y, hy, rfl⟩ := Option.map_eq_some_iff.mp hst
    obtain ⟨q, r, l, p1, p2, p3, _⟩ := stmt_place ht hy
    exact ⟨y, q, r, l, hy, p1, p2, p3, view_all p1 p2 p3⟩
  have he := h.ends
  have hstm := h.stmts
  rcases he.first with ⟨_, _, h3⟩ | ⟨_, k, j, k1, k2, k3, kp, k4, st, tr, r0, q0, a1, a2, a3, a4⟩
  · rw [hh] at h3; cases h3
  rw [hstm] at a1
  have hgood := h.nested k (List.mem_of_head? k1) j st k2 a1
  obtain ⟨m, hev⟩ := a3.eval
  rw [a4] at k3
  obtain ⟨a, hnamed, c, i, c1, c2, c3⟩ := begin_name (beginRules_only k3) hgood hev
  obtain ⟨y, q, r, l, p1, p2, p3, p4, rfl⟩ := place a1
  have c3 : l.frags[i]? = some a := c3
  have hl := List.mem_of_getElem? p4
  have ha1 := hone l hl a (List.mem_of_getElem? c3) hnamed.1
  obtain ⟨fl1, f1, f2⟩ := replaceIn_ok new p1 p2 p4 c3 ha1 (hg l hl)
  have hb : p.renameBegin o.s fl new = .ok fl1 := by
    rw [Procd.renameBegin, k4, Res.ok_bind, stmtTree, hstm, a1, a2]
    simp only [Res.ok_bind, c1, c2, f1]
  -- the last statement
  obtain ⟨j', e, tr', word, g1, g2, g3, g4, _, _, g7⟩ := last_of h
  obtain ⟨y', q', r', l', p1', p2', p3', p4', rfl⟩ := place g2
  have htree : stmtTree o.s j' = .ok (l'.frags, tr') := by rw [stmtTree, hstm, g2, g3]; rfl
  have hend : ∃ fl', p.renameEnd o.s fl1 new = .ok fl' ∧
      (((restOf (Strm.mk' l'.frags r'.1 r'.2)).length ≤ 2 ∧ fl' = fl1) ∨
        ((restOf (Strm.mk' l'.frags r'.1 r'.2)).length = 3 ∧ Replaced fl1 fl' q' (r'.1 + 2) new)) := by
    rcases g7 with ⟨a, h8, ha, hkids⟩ | ⟨a, b, h8, ha, hb, hkids⟩ | ⟨a, b, c, h8, ha, hb, hc, hi, hkids⟩
    · refine ⟨fl1, ?_, .inl ⟨by rw [h8]; simp, rfl⟩⟩
      rw [Procd.renameEnd, g1, Res.ok_bind, htree, Res.ok_bind, Cur.down, hkids]
      rfl
    · refine ⟨fl1, ?_, .inl ⟨by rw [h8]; simp, rfl⟩⟩
      rw [Procd.renameEnd, g1, Res.ok_bind, htree, Res.ok_bind, Cur.down, hkids]
      rfl
    · have hi : l'.frags[r'.1 + 2]? = some c := hi
      have hl' := List.mem_of_getElem? p4'
      have hc1 := hone l' hl' c (List.mem_of_getElem? hi) hc
      obtain ⟨l1, c', w1, w2, w3, w4, _⟩ := replaced_tok f2 p4' hi hc1 (hg l' hl')
      obtain ⟨fl', v1, v2⟩ := replaceIn_ok (fl := fl1) (j := j') new (by rw [replaced_stmts f2]; exact p1') p2' w1 w2 w3 w4
      refine ⟨fl', ?_, .inr ⟨by rw [h8]; rfl, v2⟩⟩
      rw [Procd.renameEnd, g1, Res.ok_bind, htree, Res.ok_bind, Cur.down, hkids]
      simp only [Res.ok_bind, SNode.tag, SNode.range]
      rw [show Registry.isName Tag.TK_NAME = .ok true by decide, Res.ok_bind, if_pos rfl]
      exact v1
  obtain ⟨fl', e1, e2⟩ := hend
  refine ⟨fl1, fl', k, j, y, _, q, i, l, a, ?_, ⟨k1, k2, p1, a1, p2, p4, c3, by rw [a4]; exact hnamed⟩, f2,
    ⟨j', _, y', q', r', g1, g2, p1', p2', p3', e2⟩, ?_⟩
  · obtain ⟨nm, hnm⟩ : ∃ nm, p.name o.s = .ok nm := by
      rcases first_of h with ⟨_, z, _⟩ | ⟨_, _, _, _, _, _, _, _, _, _, _, z, _⟩
      · exact ⟨_, z⟩
      · exact ⟨_, z⟩
    rw [Procd.rename, he.full, Res.ok_bind, if_neg (by simp), hnm, Res.ok_bind, if_neg (by rintro rfl; exact hnew hnm), hh, Res.ok_bind,
      if_neg (by simp), hb, Res.ok_bind, e1, Res.ok_bind]
  · -- the name after it
    obtain ⟨l0, l1, t0, w1, w2, w3, ⟨t1, w4, w5, w6⟩, w7⟩ := replaced_now f2
    rw [p4] at w1
    obtain rfl := Option.some.inj w1
    rw [c3] at w3
    obtain rfl := Option.some.inj w3
    obtain ⟨l2, t2, z1, z2, z3, z4⟩ : ∃ l2 t2, fl'.lines[q]? = some l2 ∧ l2.frags[i]? = some t2 ∧ t2.text = new ∧ fl'.stmts = fl.stmts := by
      rcases e2 with ⟨_, rfl⟩ | ⟨_, e2⟩
      · exact ⟨l1, t1, w2, w4, w5, replaced_stmts f2⟩
      · obtain ⟨l2, t2, z1, z2, _, _, z3⟩ := replaced_tok e2 w2 w4 (w6 ha1) w7
        exact ⟨l2, t2, z1, z2, z3 w5, by rw [replaced_stmts e2, replaced_stmts f2]⟩
    rw [Procd.name, he.full, Res.ok_bind, if_neg (by simp), hh, Res.ok_bind, if_neg (by simp), k4, Res.ok_bind]
    have hs' : (relink o.s fl').stmts[j]? = some ⟨y.s.label, Strm.mk' l2.frags r.1 r.2⟩ := by
      rw [relink]
      simp only
      rw [List.getElem?_map, z4, p1]
      simp only [Option.map_some, view_all p2 p3 z1]
    have ht' : (relink o.s fl').treeOf j = some tr := a2
    rw [stmtTree, hs', ht']
    simp only [Res.ok_bind]
    rw [← z3]
    exact nameAt_of ⟨c, i, c1, c2, z2⟩

theorem stmtAt_le {fl : LFile} {pos : Nat} {x : FStmt} (h : fl.stmtAt pos = .ok x) : pos ≤ fl.stmts.length := by
  rw [LFile.stmtAt] at h
  split at h
  · rename_i hx
    exact Nat.le_of_lt (List.getElem?_eq_some_iff.mp hx).1
  · split at h
    · omega
    · cases h

/-- `Procedure::emplace_stmt` never returns: see `C33_violation_emplace`. -/
theorem emplace_never (p : Procd) (fl : LFile) (i pos : Nat) (ll : LLine) (tag : Int) (v : LFile × Procd) :
    p.emplaceAfterPrefix fl i pos ll tag ≠ .ok v := by
  intro h
  rw [Procd.emplaceAfterPrefix] at h
  rbind h with f hf
  rbind h with r hr
  have hpos : pos ≤ fl.stmts.length := by
    rw [LFile.emplaceAfterPrefix] at hf
    split at hf
    · cases hf
    · rbind hf with y hy
      exact stmtAt_le hy
  have hd : (List.range (fl.stmts.length + 1)).drop pos = pos :: (List.range (fl.stmts.length + 1)).drop (pos + 1) := by
    rw [List.drop_eq_getElem_cons (by rw [List.length_range]; omega), List.getElem_range]
  have hnd : ((List.range (fl.stmts.length + 1)).take pos ++ [fl.stmts.length + 1, pos] ++ (List.range (fl.stmts.length + 1)).drop (pos + 1)).Nodup := by
    have h1 : ((List.range (fl.stmts.length + 1)).take pos ++ pos :: (List.range (fl.stmts.length + 1)).drop (pos + 1)).Nodup := by
      rw [← hd, List.take_append_drop]
      exact List.nodup_range
    have h2 : ((fl.stmts.length + 1) :: ((List.range (fl.stmts.length + 1)).take pos ++ pos :: (List.range (fl.stmts.length + 1)).drop (pos + 1))).Nodup := by
      rw [List.nodup_cons]
      refine ⟨?_, h1⟩
      rw [← hd, List.take_append_drop, List.mem_range]
      omega
    have h3 := (List.Perm.nodup_iff (List.perm_middle (a := fl.stmts.length + 1))).mpr h2
    simpa using h3
  have hre := reaches_back hnd
  rw [RP.insert] at hr
  rbind hr with a ha
  rw [hd] at hr
  split at hr
  · rw [if_neg] at hr
    · cases hr
    · have : (List.range (fl.stmts.length + 1)).take pos ++ (fl.stmts.length + 1) :: pos :: (List.range (fl.stmts.length + 1)).drop (pos + 1) =
        (List.range (fl.stmts.length + 1)).take pos ++ [fl.stmts.length + 1, pos] ++ (List.range (fl.stmts.length + 1)).drop (pos + 1) := by simp
      rw [this, hre]
      simp
  · cases hr

/-- C70 fails for every main program without a first statement: `rename` never gives it a name, as `emplace_stmt`
passes the iterators to `Range_Partition::insert` in the wrong order (undefined behaviour). -/
theorem C70_violation_headless (mk : Str → Res LLine) (s : PState) (p : Procd) (fl : LFile) (new : Str) (hh : p.headless = .ok true)
    (hnew : new ≠ []) (v : Bool × LFile × Procd) : p.rename mk s fl new ≠ .ok v := by
  intro h
  rw [Procd.rename] at h
  rbind h with e he
  split at h
  · cases h
  rename_i hne
  rbind h with nm hnm
  have : nm = [] := by
    rw [Procd.name, he, Res.ok_bind, if_neg hne, hh, Res.ok_bind, if_pos rfl] at hnm
    injection hnm with hnm
    exact hnm.symm
  rw [if_neg (by rw [this]; exact hnew), hh, Res.ok_bind, if_pos rfl] at h
  rbind h with ll hll
  rbind h with m hm
  split at h
  · cases h
  · rbind h with w hw
    exact emplace_never _ _ _ _ _ _ _ hw

/-- C70: to rename a procedure to the name it has changes nothing, and says so. -/
theorem C70_rename_same (mk : Str → Res LLine) (s : PState) (p : Procd) (fl : LFile) (new : Str) (he : p.ranges.empty PROC_END = .ok false)
    (hn : p.name s = .ok new) : p.rename mk s fl new = .ok (false, fl, p) := by
  rw [Procd.rename, he]
  simp only [Res.ok_bind, Bool.false_eq_true, if_false]
  rw [hn]
  simp only [Res.ok_bind, if_true]


end Proc
end FLPR
