import Verif.Procedure.VisitorShape
import Verif.Procedure.ParsedProps
/-!
# C66: the visitor calls its action for each procedure (src/flpr/Procedure_Visitor.hh)
-/

namespace FLPR
namespace Vis
open PP Spec Proc
open SP (R Exts)

variable {L : R → Nat → Int → Prop} {σ : Type}

section
variable (hL : ∀ r i t, L r i t → t = r.rootTag) (hP : ∀ r i t, L r i t → t ∉ procTags)
include hL hP

/-- The one procedure that a rule for procedures stands for. -/
theorem proc_one {r : PR} {ks : List PNode} (hr : procRule r = true) (h : Derives L PR.body (.rule r) (eraseAll ks)) :
    ∃ m, ks = [m] ∧ Parts L m := by
  obtain ⟨tag, p0, e, c1, c2, c3, c5, c4⟩ := procRule_cases hL hr
  obtain ⟨f, _, hf⟩ := derives_seqIf (derives_comb c1 h)
  rw [under, if_neg c2] at hf
  obtain ⟨m, y, rfl, _, hy⟩ := eraseAll_cons hf
  rw [eraseAll_nil hy] at h ⊢
  exact ⟨m, rfl, (parts_of hL hP hr h).1⟩

theorem eachModule_calls (act : Act σ) (p : List Nat) : ∀ (ks : List PNode) (i : Nat) (r : σ × Bool), TreesOk ks →
    (∀ s ∈ ks, Derives L PR.body (.rule .module_subprogram) [erase s]) →
    eachModule act p i ks r = callAll act (shallow (procsInAll p i 0 true ks)) r
  | [], i, r, _, _ => rfl
  | k :: ks, i, r, hok, h => by
    rw [TreesOk] at hok
    obtain ⟨h1, h2, q, hq, hd⟩ := alts_one rfl (by decide) (h k (by simp))
    have hr : ∃ r', q = .rule r' ∧ procRule r' = true := by
      simp only [List.mem_cons, List.not_mem_nil, or_false] at hq
      rcases hq with rfl | rfl | rfl <;> exact ⟨_, rfl, rfl⟩
    obtain ⟨r', rfl, hr'⟩ := hr
    obtain ⟨m, hm, hmp⟩ := proc_one hL hP hr' hd
    have hmain : m.tag ≠ Tag.PG_MAIN_PROGRAM := by
      rw [hm, eraseAll_single] at hd
      simp only [List.mem_cons, List.not_mem_nil, or_false] at hq
      rcases hq with hq | hq | hq <;> injection hq with hq <;> subst hq
      all_goals
        obtain ⟨f, _, hf⟩ := derives_seqIf (derives_comb rfl hd)
        rw [under, if_neg (by decide)] at hf
        injection hf with hf _
        rw [(erase_inner hf).1]
        decide
    have hmt : m.tag = Tag.PG_FUNCTION_SUBPROGRAM ∨ m.tag = Tag.PG_SUBROUTINE_SUBPROGRAM ∨ m.tag = Tag.PG_SEPARATE_MODULE_SUBPROGRAM := by
      have := hmp.tag
      simp only [procTags, List.mem_cons, List.not_mem_nil, or_false] at this
      rcases this with h | h | h | h
      · exact .inl h
      · exact .inr (.inl h)
      · exact absurd h hmain
      · exact .inr (.inr h)
    have mok : TreeOk m := treesOk_mem (treeOk_kids hok.2.1) (by rw [hm]; simp)
    rw [eachModule, hm]
    simp only [if_pos hmt]
    simp only [eachModule_calls act p ks (i + 1) _ hok.2.2 (fun s hs => h s (by simp [hs]))]
    rw [procsInAll, shallow_append, procsIn_plain (by rw [h1]; decide) (by rw [h1]; decide), hm, procsInAll_one, List.append_assoc]
    exact call_step act (fun s => visitProc_calls hL hP act true _ mok hmp s) r

theorem visitModule_calls (act : Act σ) (p : List Nat) {n : PNode} (ht : TreeOk n)
    (h : Derives L PR.body (.rule .module_) [erase n]) (s : σ) :
    visitModule act p n s = callAll act (shallow (procsIn p 0 false n)) (s, false) := by
  obtain ⟨f, hf, he⟩ := derives_seqIf (derives_comb (p := _) rfl h)
  rw [under, if_neg (by decide)] at he
  injection he with he _
  obtain ⟨h1, h2, h3⟩ := erase_inner he
  obtain ⟨a, f, rfl, ha, hf⟩ := derivesSeq_cons hf
  obtain ⟨b, f, rfl, hb, hf⟩ := derivesSeq_cons hf
  obtain ⟨c, f, rfl, hc, hf⟩ := derivesSeq_cons hf
  obtain ⟨d, f, rfl, hd, hf⟩ := derivesSeq_cons hf
  rw [derivesSeq_nil hf, List.append_nil] at h3
  obtain ⟨ks, rfl, _⟩ := spec_shape hL hb
  obtain ⟨i, t, rfl, hl⟩ := derives_stmt ha
  obtain ⟨j, u, rfl, hl'⟩ := derives_stmt hd
  obtain ⟨first, y, e1, e2, e3⟩ := eraseAll_cons h3
  obtain ⟨sp, y1, rfl, e4, e5⟩ := eraseAll_cons (show eraseAll y = _ :: (c ++ [.leaf j u]) from e3)
  obtain ⟨part, y2, rfl, rfl, e6⟩ := eraseAll_split (show eraseAll y1 = c ++ [.leaf j u] from e5)
  obtain ⟨last, y3, rfl, e7, e8⟩ := eraseAll_cons e6
  have e8 := eraseAll_nil e8
  subst e8
  have ft : first.tag = Tag.SG_MODULE_STMT := by
    rw [(erase_leaf e2).1, hL _ _ _ hl]
    decide +kernel
  have lt : last.tag = Tag.SG_END_MODULE_STMT := by
    rw [(erase_leaf e7).1, hL _ _ _ hl']
    decide +kernel
  have st := (erase_inner e4).1
  have hok := treeOk_kids ht
  rw [e1, TreesOk, TreesOk] at hok
  obtain ⟨_, f0, _, s0, hok⟩ := hok
  have hokp : ∀ k ∈ part ++ [last], TreeOk k := fun k hk => treesOk_mem hok hk
  have one : ∀ {k : PNode}, TreeOk k → Quiet [erase k] → ∀ (p : List Nat) (d : Nat) (m : Bool), procsIn p d m k = [] := by
    intro k hk hq p d m
    refine procsIn_quiet k p d m (fun n hn => ?_)
    have := hq _ (show erase n ∈ shsAll [erase k] by
      rw [shsAll, shsAll, List.append_nil]
      exact (erase_shs k hk n hn).2)
    rwa [erase_tag'] at this
  have q1 := one f0 (by rw [e2]; exact quiet_leaf hP hl)
  have q2 := one s0 (by rw [e4]; exact derives_quiet hP hb rfl)
  have q3 := one (hokp last (by simp)) (by rw [e7]; exact quiet_leaf hP hl')
  have mt : n.tag ∉ procTags ∧ n.tag ∈ moduleTags := by rw [h1]; decide
  have e9 : procsIn p 0 false n = procsInAll p 2 0 true part := by
    obtain ⟨t', r', i', ks'⟩ := n
    rw [procsIn, if_neg (show t' ∉ procTags from mt.1), show decide (t' ∈ moduleTags) = true from decide_eq_true mt.2,
      show ks' = first :: sp :: (part ++ [last]) from e1, procsInAll, procsInAll, q1, q2, procsInAll_append, procsInAll_one, q3]
    simp
  rw [visitModule, down, e1]
  simp only [Res.ok_bind, if_pos ft, Sib.next, Sib.tryNext, Sib.past, if_pos st]
  rw [e9]
  rcases derives_opt hc with ⟨hp, _⟩ | hp
  · have hp := eraseAll_nil hp
    subst hp
    simp only [List.nil_append]
    rw [if_neg (by rw [lt]; decide)]
    rfl
  · obtain ⟨f, _, hk⟩ := derives_seqIf (derives_comb (p := _) rfl hp)
    rw [under, if_neg (by decide)] at hk
    obtain ⟨x, y, rfl, hk, hy⟩ := eraseAll_cons hk
    have hy := eraseAll_nil hy
    subst hy
    obtain ⟨k1, _, c, subs, k2, k3, k4, k5⟩ := subs_of hL hP (by decide) (by decide) rfl rfl hp
    have xok := treeOk_kids (hokp x (by simp))
    rw [k2, TreesOk] at xok
    simp only [List.singleton_append, if_pos k1, k2, if_pos k3]
    rw [eachModule_calls hL hP act _ subs 1 _ xok.2.2 k5, procsInAll_one, procsIn_plain (by rw [k1]; decide) (by rw [k1]; decide), k2,
      procsInAll, one xok.2.1 k4]
    rfl

theorem visitUnit_calls (act : Act σ) (p : List Nat) {u : T} (hu : u ∈ [T.rule .external_subprogram, .rule .module_, .rule .main_program])
    {ks : List PNode} (hok : TreesOk ks) (h : Derives L PR.body u (eraseAll ks)) :
    ∃ m, ks = [m] ∧ ∀ s, visitUnit act p m s = callAll act (shallow (procsIn p 0 false m)) (s, false) := by
  simp only [List.mem_cons, List.not_mem_nil, or_false] at hu
  rcases hu with rfl | rfl | rfl
  · obtain ⟨f, hf⟩ := derives_alts (derives_comb (p := _) rfl h)
    rw [under, if_neg (by decide)] at hf
    obtain ⟨m, y, rfl, _, hy⟩ := eraseAll_cons hf
    have hy := eraseAll_nil hy
    subst hy
    refine ⟨m, rfl, fun s => ?_⟩
    obtain ⟨h1, h2, q, hq, hd⟩ := alts_one rfl (by decide) h
    have hr : ∃ r', q = .rule r' ∧ procRule r' = true := by
      simp only [List.mem_cons, List.not_mem_nil, or_false] at hq
      rcases hq with rfl | rfl <;> exact ⟨_, rfl, rfl⟩
    obtain ⟨r', rfl, hr'⟩ := hr
    obtain ⟨m', hm, hmp⟩ := proc_one hL hP hr' hd
    rw [TreesOk] at hok
    have mok : TreeOk m' := treesOk_mem (treeOk_kids hok.2.1) (by rw [hm]; simp)
    rw [visitUnit, if_pos h1, procsIn_plain (by rw [h1]; decide) (by rw [h1]; decide), hm, procsInAll_one, down, hm]
    simp only [Res.ok_bind]
    exact visitProc_calls hL hP act false _ mok hmp s
  · obtain ⟨f, _, hf⟩ := derives_seqIf (derives_comb (p := _) rfl h)
    rw [under, if_neg (by decide)] at hf
    obtain ⟨m, y, rfl, hm, hy⟩ := eraseAll_cons hf
    have hy := eraseAll_nil hy
    subst hy
    refine ⟨m, rfl, fun s => ?_⟩
    have h1 := (erase_inner hm).1
    rw [TreesOk] at hok
    rw [visitUnit, if_neg (by rw [h1]; decide), if_pos h1]
    exact visitModule_calls hL hP act p hok.2.1 h s
  · obtain ⟨f, _, hf⟩ := derives_seqIf (derives_comb (p := _) rfl h)
    rw [under, if_neg (by decide)] at hf
    obtain ⟨m, y, rfl, hm, hy⟩ := eraseAll_cons hf
    have hy := eraseAll_nil hy
    subst hy
    refine ⟨m, rfl, fun s => ?_⟩
    have h1 := (erase_inner hm).1
    rw [TreesOk] at hok
    rw [visitUnit, if_neg (by rw [h1]; decide), if_neg (by rw [h1]; decide), if_pos h1]
    exact visitProc_calls hL hP act false p hok.2.1 (parts_of hL hP rfl h).1 s

theorem eachUnit_calls (act : Act σ) : ∀ (ks : List PNode) (i : Nat) (r : σ × Bool), TreesOk ks →
    (∀ s ∈ ks, Derives L PR.body (.rule .program_unit) [erase s]) →
    eachUnit act i ks r = callAll act (shallow (procsInAll [] i 0 false ks)) r
  | [], i, r, _, _ => rfl
  | k :: ks, i, r, hok, h => by
    rw [TreesOk] at hok
    obtain ⟨h1, h2, u, hu, hd⟩ := alts_one rfl (by decide) (h k (by simp))
    obtain ⟨m, hm, hv⟩ := visitUnit_calls hL hP act [i, 0] hu (treeOk_kids hok.2.1) hd
    rw [eachUnit, if_pos h1, down, hm]
    simp only [Res.ok_bind]
    simp only [eachUnit_calls act ks (i + 1) _ hok.2.2 (fun s hs => h s (by simp [hs]))]
    rw [procsInAll, shallow_append, procsIn_plain (by rw [h1]; decide) (by rw [h1]; decide), hm, procsInAll_one, List.nil_append]
    exact call_step act hv r

end

/-- C66: on the tree of a parsed program, `visit` calls the action for each procedure that is inside of at
most one other, from first to last, with the right flags, and returns whether a call returned true.  If a
call throws, so does `visit`; nothing else goes wrong. -/
theorem C66_visit (x : Exts) (hx : x.Forward) (hn : NeedToken x) (s : PState) (hs : Full s) (o : POut)
    (h : PReturns x .program s (.ok o)) (ho : o.ok = true) (t : PNode) (ht : o.tree = some t) (act : Act σ) (a : σ) :
    visit act (some t) a = callAll act ((procsOf t).filter (fun f => decide (f.depth < 2))) (a, false) := by
  have hL : ∀ r i t, Matched x s.stmts r i t → t = r.rootTag := fun r i t h => C65_leaf_tag h
  have hP : ∀ r i t, Matched x s.stmts r i t → t ∉ procTags := fun r i t h => by rw [hL r i t h]; exact rootTag_proc r
  have hd := C65_derives x hx hn .program s hs o h ho
  obtain ⟨t', ht', htag, _⟩ := C39_program_partial x hx hn s hs o h ho
  rw [ht] at ht'
  injection ht' with ht'
  subst ht'
  rw [ht, branchesOf, if_neg (by rw [htag]; decide)] at hd
  have hok := ((C39_tree_partial x hx hn .program s hs o h).2.2.2 t ht).1
  obtain ⟨f, hf, he⟩ := derives_seq (derives_comb (p := _) rfl hd)
  rw [under, if_neg (by decide)] at he
  injection he with he _
  obtain ⟨h1, h2, h3⟩ := erase_inner he
  obtain ⟨b, f, rfl, hb, hf⟩ := derivesSeq_cons hf
  obtain ⟨c, f, rfl, hc, hf⟩ := derivesSeq_cons hf
  rw [derivesSeq_nil hf, List.append_nil] at h3
  have hc : c = [] := by cases hc; rfl
  rw [hc, List.append_nil] at h3
  have hunit : ∀ f, Derives (Matched x s.stmts) PR.body (.rule .program_unit) f → ∃ y, f = [y] := by
    intro f hf
    obtain ⟨f', rfl⟩ := derives_alts (derives_comb (p := _) rfl hf)
    exact ⟨_, by rw [under, if_neg (by decide)]⟩
  have hall : (∀ y ∈ b, Derives (Matched x s.stmts) PR.body (.rule .program_unit) [y]) ∧ b ≠ [] := by
    cases hb with
    | plus h1 h2 =>
      obtain ⟨y, rfl⟩ := hunit _ h1
      rw [under, if_pos rfl]
      refine ⟨fun z hz => ?_, by simp⟩
      rcases List.mem_append.mp hz with hz | hz
      · simp only [List.mem_singleton] at hz
        subst hz
        exact h1
      · exact rep_one hunit h2 z hz
  rw [visit]
  simp only [if_pos h1]
  cases hk : t.kids with
  | nil => rw [hk] at h3; exact absurd h3.symm hall.2
  | cons k ks =>
    simp only
    rw [← hk, eachUnit_calls hL hP act t.kids 0 (a, false) (treeOk_kids hok) ?_, procsOf,
      procsIn_plain (by rw [h1]; decide) (by rw [h1]; decide)]
    · rfl
    · intro z hz
      refine hall.1 _ ?_
      rw [← h3, eraseAll_map]
      exact List.mem_map.mpr ⟨z, hz, rfl⟩

end Vis
end FLPR
