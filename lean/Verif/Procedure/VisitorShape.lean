import Verif.Procedure.VisitorLemmas
/-!
# Lemmas for C66: the visitor on trees of the grammar
-/

namespace FLPR
namespace Vis
open PP Spec Proc
open SP (R Exts)

/-- The procedures that are visited. -/
def shallow (l : List Found) : List Found := l.filter (fun f => decide (f.depth < 2))

theorem shallow_append (a b : List Found) : shallow (a ++ b) = shallow a ++ shallow b := List.filter_append ..

theorem shallow_in {f : Found} (h : f.depth < 2) (l : List Found) : shallow (f :: l) = f :: shallow l :=
  List.filter_cons_of_pos (by simpa using h)

theorem shallow_out {f : Found} (h : 2 ≤ f.depth) (l : List Found) : shallow (f :: l) = shallow l :=
  List.filter_cons_of_neg (by simpa using h)

mutual
theorem procsIn_deep : ∀ (k : PNode) (p : List Nat) (d : Nat) (m : Bool), 2 ≤ d → shallow (procsIn p d m k) = []
  | .node t r i ks, p, d, m, h => by
    rw [procsIn]
    split
    · rw [shallow_out h]
      exact procsInAll_deep ks _ _ _ _ (by omega)
    · exact procsInAll_deep ks _ _ _ _ h
theorem procsInAll_deep : ∀ (ks : List PNode) (p : List Nat) (i d : Nat) (m : Bool), 2 ≤ d → shallow (procsInAll p i d m ks) = []
  | [], _, _, _, _, _ => rfl
  | k :: ks, p, i, d, m, h => by
    rw [procsInAll, shallow_append]
    exact List.append_eq_nil_iff.mpr ⟨procsIn_deep k _ _ _ h, procsInAll_deep ks _ _ _ _ h⟩
end

variable {L : R → Nat → Int → Prop}

/-- The one branch that an alternative stands for. -/
theorem alts_one {r : PR} {tag : Int} {ps : List T} {k : PNode} (hr : PR.body r = .comb (.alts tag ps)) (ht : tag ≠ Tag.HOIST)
    (h : Derives L PR.body (.rule r) [erase k]) :
    k.tag = tag ∧ k.stmt = none ∧ ∃ p ∈ ps, Derives L PR.body p (eraseAll k.kids) := by
  have h := derives_comb hr h
  generalize hf : [erase k] = f at h
  cases h with
  | alts hm h =>
    rw [under, if_neg ht] at hf
    injection hf with hf _
    obtain ⟨h1, h2, h3⟩ := erase_inner hf
    exact ⟨h1, h2, _, hm, by rw [h3]; exact h⟩

theorem rep_one {p : T} (hp : ∀ f, Derives L PR.body p f → ∃ x, f = [x]) : ∀ {f : List Sh}, DerivesRep L PR.body p f →
    ∀ x ∈ f, Derives L PR.body p [x]
  | _, .nil, x, hx => by cases hx
  | _, .cons h1 h2, x, hx => by
    obtain ⟨y, rfl⟩ := hp _ h1
    rcases List.mem_append.mp hx with h | h
    · simp only [List.mem_singleton] at h
      subst h
      exact h1
    · exact rep_one hp h2 x h

/-- The branches of a procedure. -/
structure Parts (L : R → Nat → Int → Prop) (n : PNode) : Prop where
  tag : n.tag ∈ procTags
  kids : ∃ first sp ex int last, n.kids = first ++ (sp :: (ex ++ (int ++ [last]))) ∧
    ((n.tag = Tag.PG_MAIN_PROGRAM ∧ first = []) ∨ ∃ f, first = [f] ∧ (n.tag = Tag.PG_MAIN_PROGRAM → f.tag = Tag.SG_PROGRAM_STMT)) ∧
    Quiet (eraseAll first) ∧ sp.tag = Tag.PG_SPECIFICATION_PART ∧ Quiet [erase sp] ∧
    (ex = [] ∨ ∃ e, ex = [e] ∧ e.tag = Tag.PG_EXECUTION_PART) ∧ Quiet (eraseAll ex) ∧
    (int = [] ∨ ∃ k c subs, int = [k] ∧ k.tag = Tag.PG_INTERNAL_SUBPROGRAM_PART ∧ k.kids = c :: subs ∧
      c.tag = Tag.SG_CONTAINS_STMT ∧ Quiet [erase c] ∧ ∀ s ∈ subs, Derives L PR.body (.rule .internal_subprogram) [erase s]) ∧
    last.tag ∈ endTags ∧ Quiet [erase last]

section
variable (hL : ∀ r i t, L r i t → t = r.rootTag) (hP : ∀ r i t, L r i t → t ∉ procTags)
include hL hP

/-- A part with subprograms. -/
theorem subs_of {r q : PR} {k : PNode} {tag qtag : Int} {ps : List T} (ht : tag ≠ Tag.HOIST) (hqt : qtag ≠ Tag.HOIST)
    (hr : PR.body r = .comb (.seqIf tag (.stmt .contains_stmt) [.star (.rule q)])) (hq : PR.body q = .comb (.alts qtag ps))
    (h : Derives L PR.body (.rule r) [erase k]) : k.tag = tag ∧ k.stmt = none ∧ ∃ c subs, k.kids = c :: subs ∧
      c.tag = Tag.SG_CONTAINS_STMT ∧ Quiet [erase c] ∧ ∀ s ∈ subs, Derives L PR.body (.rule q) [erase s] := by
  obtain ⟨f, hf, he⟩ := derives_seqIf (derives_comb hr h)
  rw [under, if_neg ht] at he
  injection he with he _
  obtain ⟨h1, h2, h3⟩ := erase_inner he
  obtain ⟨a, b, rfl, ha, hf⟩ := derivesSeq_cons hf
  obtain ⟨b, b', rfl, hb, hf⟩ := derivesSeq_cons hf
  rw [derivesSeq_nil hf, List.append_nil] at h3
  obtain ⟨i, t, rfl, hl⟩ := derives_stmt ha
  obtain ⟨c, subs, e1, e2, e3⟩ := eraseAll_cons h3
  refine ⟨h1, h2, c, subs, e1, ?_, ?_, fun s hs => ?_⟩
  · rw [(erase_leaf e2).1, hL _ _ _ hl]
    decide +kernel
  · rw [e2]
    exact quiet_leaf hP hl
  · refine rep_one (fun f hf => ?_) (derives_star hb) (erase s) ?_
    · obtain ⟨f', rfl⟩ := derives_alts (derives_comb hq hf)
      exact ⟨_, by rw [under, if_neg hqt]⟩
    · rw [← show eraseAll subs = b from e3, eraseAll_map]
      exact List.mem_map.mpr ⟨s, hs, rfl⟩

/-- The tree of a rule for procedures. -/
theorem parts_of {r : PR} {n : PNode} (hr : procRule r = true) (h : Derives L PR.body (.rule r) [erase n]) :
    Parts L n ∧ n.stmt = none := by
  obtain ⟨tag, p0, e, c1, c2, c3, c5, c4⟩ := procRule_cases hL hr
  have hp0 : still p0 = true ∧ tag ∈ procTags := by
    cases r <;> simp only [procRule, Bool.false_eq_true] at hr <;>
      (simp only [PR.body, Gr.function_subprogram, Gr.subroutine_subprogram, Gr.main_program, Gr.separate_module_subprogram] at c1
       injection c1 with c1
       injection c1 with a1 a2 a3
       subst a1 a2
       exact ⟨rfl, by decide⟩)
  obtain ⟨f, hf, he⟩ := derives_seqIf (derives_comb c1 h)
  rw [under, if_neg c2] at he
  injection he with he _
  obtain ⟨h1, h2, h3⟩ := erase_inner he
  refine ⟨⟨by rw [h1]; exact hp0.2, ?_⟩, h2⟩
  obtain ⟨a, f, rfl, ha, hf⟩ := derivesSeq_cons hf
  obtain ⟨b, f, rfl, hb, hf⟩ := derivesSeq_cons hf
  obtain ⟨c, f, rfl, hc, hf⟩ := derivesSeq_cons hf
  obtain ⟨d, f, rfl, hd, hf⟩ := derivesSeq_cons hf
  obtain ⟨g, f, rfl, hg, hf⟩ := derivesSeq_cons hf
  rw [derivesSeq_nil hf, List.append_nil] at h3
  obtain ⟨first, y, e1, rfl, e2⟩ := eraseAll_split h3
  obtain ⟨spl, y1, rfl, rfl, e3⟩ := eraseAll_split e2
  obtain ⟨ex, y2, rfl, rfl, e4⟩ := eraseAll_split e3
  obtain ⟨int, last, rfl, rfl, rfl⟩ := eraseAll_split e4
  obtain ⟨ks, hsp, _⟩ := spec_shape hL hb
  obtain ⟨sp, y, rfl, hsp', hy⟩ := eraseAll_cons hsp
  have hy := eraseAll_nil hy
  subst hy
  obtain ⟨j, t, hlast, hl⟩ := derives_stmt hg
  obtain ⟨last, y, rfl, hlast', hy⟩ := eraseAll_cons hlast
  have hy := eraseAll_nil hy
  subst hy
  refine ⟨first, sp, ex, int, last, by rw [e1]; rfl, ?_, derives_quiet hP ha hp0.1, (erase_inner hsp').1,
    derives_quiet hP hb rfl, ?_, derives_quiet hP hc rfl, ?_, ?_, ?_⟩
  · rcases c4 n first h1 ha with ⟨h, h'⟩ | ⟨f, i, h, _, _, h'⟩
    · exact .inl ⟨h', h⟩
    · exact .inr ⟨f, h, beginPairs_main h'⟩
  · rcases derives_opt hc with ⟨h, _⟩ | h
    · exact .inl (eraseAll_nil h)
    · obtain ⟨k, _, hk⟩ := derives_seqIf (derives_comb (p := _) rfl h)
      rw [under, if_neg (by decide)] at hk
      obtain ⟨x, y, rfl, hk, hy⟩ := eraseAll_cons hk
      rw [eraseAll_nil hy]
      exact .inr ⟨x, rfl, (erase_inner hk).1⟩
  · rcases derives_opt hd with ⟨h, _⟩ | h
    · exact .inl (eraseAll_nil h)
    · obtain ⟨k, _, hk⟩ := derives_seqIf (derives_comb (p := _) rfl h)
      rw [under, if_neg (by decide)] at hk
      obtain ⟨x, y, rfl, hk, hy⟩ := eraseAll_cons hk
      have hy := eraseAll_nil hy
      subst hy
      obtain ⟨k1, _, c, subs, k2, k3, k4, k5⟩ := subs_of hL hP (by decide) (by decide) rfl rfl h
      exact .inr ⟨x, c, subs, rfl, k1, k2, k3, k4, k5⟩
  · rw [(erase_leaf hlast').1, hL _ _ _ hl]
    exact c3
  · rw [hlast']
    exact quiet_leaf hP hl

end

/-! ### The visitor -/

variable {σ : Type}

theorem eraseAll_single (k : PNode) : eraseAll [k] = [erase k] := rfl

theorem procsInAll_one (p : List Nat) (i d : Nat) (m : Bool) (k : PNode) : procsInAll p i d m [k] = procsIn (p ++ [i]) d m k := by
  rw [procsInAll, procsInAll, List.append_nil]

/-- A node that is neither a procedure nor a module. -/
theorem procsIn_plain {k : PNode} {p : List Nat} {d : Nat} {m : Bool} (h1 : k.tag ∉ procTags) (h2 : k.tag ∉ moduleTags) :
    procsIn p d m k = procsInAll p 0 d m k.kids := by
  obtain ⟨t, r, i, ks⟩ := k
  rw [procsIn, if_neg (show t ∉ procTags from h1), show decide (t ∈ moduleTags) = false from decide_eq_false h2, Bool.or_false]
  rfl

theorem procsIn_proc {k : PNode} {p : List Nat} {d : Nat} {m : Bool} (h1 : k.tag ∈ procTags) :
    procsIn p d m k = ⟨p, d, m⟩ :: procsInAll p 0 (d + 1) m k.kids := by
  obtain ⟨t, r, i, ks⟩ := k
  rw [procsIn, if_pos (show t ∈ procTags from h1)]
  rfl

section
variable (hL : ∀ r i t, L r i t → t = r.rootTag) (hP : ∀ r i t, L r i t → t ∉ procTags)
include hL hP

theorem eachInternal_calls (act : Act σ) (module : Bool) (p : List Nat) : ∀ (ks : List PNode) (i : Nat) (r : σ × Bool),
    (∀ s ∈ ks, Derives L PR.body (.rule .internal_subprogram) [erase s]) →
    eachInternal act module p i ks r = callAll act (shallow (procsInAll p i 1 module ks)) r
  | [], i, r, _ => rfl
  | k :: ks, i, r, h => by
    obtain ⟨h1, h2, q, hq, hd⟩ := alts_one rfl (by decide) (h k (by simp))
    have key : ∃ m, k.kids = [m] ∧ m.tag ∈ procTags := by
      have : ∃ r', q = .rule r' ∧ procRule r' = true := by
        simp only [List.mem_cons, List.not_mem_nil, or_false] at hq
        rcases hq with rfl | rfl <;> exact ⟨_, rfl, rfl⟩
      obtain ⟨r', rfl, hr'⟩ := this
      obtain ⟨tag, p0, e, c1, c2, c3, c5, c4⟩ := procRule_cases hL hr'
      obtain ⟨f, _, hf⟩ := derives_seqIf (derives_comb c1 hd)
      rw [under, if_neg c2] at hf
      obtain ⟨m, y, hm, _, hy⟩ := eraseAll_cons hf
      rw [eraseAll_nil hy] at hm
      rw [hm, eraseAll_single] at hd
      exact ⟨m, hm, (parts_of hL hP hr' hd).1.tag⟩
    obtain ⟨m, hm, hmt⟩ := key
    have e1 : shallow (procsIn (p ++ [i]) 1 module k) = [⟨p ++ [i, 0], 1, module⟩] := by
      rw [procsIn_plain (by rw [h1]; decide) (by rw [h1]; decide), hm, procsInAll_one, procsIn_proc hmt,
        shallow_in (by simp), procsInAll_deep _ _ _ _ _ (by omega), List.append_assoc]
      rfl
    rw [eachInternal, hm, procsInAll, shallow_append, e1, List.singleton_append, callAll]
    simp only [eachInternal_calls act module p ks (i + 1) _ (fun s hs => h s (by simp [hs]))]
    rfl

theorem visitProc_calls (act : Act σ) (module : Bool) (p : List Nat) {n : PNode} (ht : TreeOk n) (hn : Parts L n) (s : σ) :
    visitProc act module p n s = callAll act (shallow (procsIn p 0 module n)) (s, false) := by
  obtain ⟨first, sp, ex, int, last, hk, hf, hfq, hs1, hs2, hx1, hx2, hi, hl1, hl2⟩ := hn.kids
  have hok := treeOk_kids ht
  have hin : ∀ k, k ∈ n.kids → TreeOk k := fun k hk => treesOk_mem hok hk
  rw [hk] at hin
  have sub : ∀ (l : List PNode), (∀ k ∈ l, TreeOk k ∧ k.tag ≠ Tag.HOIST) → TreesOk l := by
    intro l hl
    induction l with
    | nil => trivial
    | cons a l ih =>
      rw [TreesOk]
      exact ⟨(hl a (by simp)).2, (hl a (by simp)).1, ih (fun k hk => hl k (by simp [hk]))⟩
  have hoist : ∀ (l : List PNode), TreesOk l → ∀ k ∈ l, TreeOk k ∧ k.tag ≠ Tag.HOIST := by
    intro l hl
    induction l with
    | nil => intro k hk; cases hk
    | cons a l ih =>
      rw [TreesOk] at hl
      intro k hk
      rcases List.mem_cons.mp hk with rfl | hk
      · exact ⟨hl.2.1, hl.1⟩
      · exact ih hl.2.2 k hk
  rw [hk] at hok
  have hall := hoist _ hok
  have o1 : TreesOk first := sub _ (fun k hk => hall k (by simp [hk]))
  have o2 : TreesOk [sp] := sub _ (fun k hk => hall k (by simp at hk; simp [hk]))
  have o3 : TreesOk ex := sub _ (fun k hk => hall k (by simp [hk]))
  have o4 : TreesOk [last] := sub _ (fun k hk => hall k (by simp at hk; simp [hk]))
  have oi : TreesOk int := sub _ (fun k hk => hall k (by simp [hk]))
  have e1 : procsInAll p 0 1 module n.kids = procsInAll p (first.length + (1 + ex.length)) 1 module int := by
    rw [hk, procsInAll_append, quietAll o1 hfq, show sp :: (ex ++ (int ++ [last])) = [sp] ++ (ex ++ (int ++ [last])) from rfl,
      procsInAll_append, quietAll o2 hs2, procsInAll_append, quietAll o3 hx2, procsInAll_append, quietAll o4 hl2]
    simp [Nat.add_assoc]
  -- where the visitor arrives
  have c0 : ∃ c, pastFirst n = .ok c ∧ c.idx = first.length ∧ c.node = sp ∧ c.rest = ex ++ (int ++ [last]) := by
    rw [pastFirst]
    rcases hf with ⟨hm, rfl⟩ | ⟨f, rfl, hm⟩
    · refine ⟨⟨0, sp, ex ++ (int ++ [last])⟩, ?_, rfl, rfl, rfl⟩
      simp only [down, hk, List.nil_append, Res.ok_bind, if_pos hm]
      rw [if_neg (by rw [hs1]; decide)]
    · refine ⟨⟨1, sp, ex ++ (int ++ [last])⟩, ?_, rfl, rfl, rfl⟩
      simp only [down, hk, List.singleton_append, Res.ok_bind]
      split
      · rename_i h
        rw [if_pos (hm h)]
        rfl
      · rfl
  obtain ⟨c, hc, ci, cn, cr⟩ := c0
  rw [visitProc, procsIn_proc hn.tag, shallow_in (by simp), callAll]
  refine congrArg _ (funext fun r => ?_)
  simp only [hc, Res.ok_bind, Bool.false_or]
  rw [e1]
  -- past the specification part
  have c1 : ∃ c1, c.past Tag.PG_SPECIFICATION_PART = some c1 ∧ c1.idx = first.length + 1 ∧ c1.node :: c1.rest = ex ++ (int ++ [last]) := by
    rw [Sib.past, if_pos (by rw [cn]; exact hs1), Sib.tryNext, cr]
    cases hh : ex ++ (int ++ [last]) with
    | nil => simp at hh
    | cons a b => exact ⟨_, rfl, by rw [ci], rfl⟩
  obtain ⟨c1, h1, i1, r1⟩ := c1
  simp only [h1]
  have hil : ∀ a b, int ++ [last] = a :: b → a.tag ≠ Tag.PG_EXECUTION_PART := by
    intro a b hh
    rcases hi with rfl | ⟨k, c, subs, rfl, hk, _⟩
    · injection hh with hh _
      subst hh
      intro h
      rw [h] at hl1
      exact absurd hl1 (by decide)
    · injection hh with hh _
      subst hh
      rw [hk]
      decide
  have c2 : ∃ c2, c1.past Tag.PG_EXECUTION_PART = some c2 ∧ c2.idx = first.length + (1 + ex.length) ∧ c2.node :: c2.rest = int ++ [last] := by
    rcases hx1 with rfl | ⟨e, rfl, he⟩
    · refine ⟨c1, ?_, by simpa using i1, r1⟩
      rw [Sib.past, if_neg (hil _ _ r1.symm)]
    · rw [List.singleton_append] at r1
      injection r1 with r1 r1'
      rw [Sib.past, if_pos (by rw [r1]; exact he), Sib.tryNext, r1']
      cases hh : int ++ [last] with
      | nil => simp at hh
      | cons a b => exact ⟨_, rfl, by simp [i1, Nat.add_assoc], rfl⟩
  obtain ⟨c2, h2, i2, r2⟩ := c2
  simp only [h2]
  rcases hi with rfl | ⟨k, ct, subs, rfl, k1, k2, k3, k4, k5⟩
  · injection r2 with r2 _
    rw [internals, if_neg (by rw [r2]; intro h; rw [h] at hl1; exact absurd hl1 (by decide))]
    rfl
  · injection r2 with r2 _
    rw [internals, if_pos (by rw [r2]; exact k1), r2, k2, procsInAll_one,
      procsIn_plain (by rw [k1]; decide) (by rw [k1]; decide), k2]
    simp only [if_pos k3]
    rw [eachInternal_calls hL hP act module _ subs 1 r k5, i2, procsInAll, procsIn_quiet ct]
    · rfl
    · intro n' hn'
      have hkk : TreeOk k := (hall k (by simp)).1
      have hkk := treeOk_kids hkk
      rw [k2] at hkk
      have := k4 _ (by
        have := (erase_shs ct (treesOk_mem hkk (by simp)) n' hn').2
        rw [shsAll, shsAll, List.append_nil]
        exact this)
      rwa [erase_tag'] at this

end

end Vis
end FLPR
