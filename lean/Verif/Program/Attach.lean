import Verif.Program.AttachSpec
import Verif.Program.Shape
/-!
# Lemmas for C68
-/

namespace FLPR
namespace PP
open Spec
open SP (R SNode Rng Strm PRes PFail up up_ok)

/-! ### The leaves -/

mutual
theorem own_true : ∀ (k : Sh), ∀ e ∈ Sh.own true k, e ∈ Sh.own false k
  | .leaf i t, e, h => h
  | .inner t ks, e, h => by
    rw [Sh.own] at h ⊢
    rw [if_neg (by simp)]
    by_cases ht : t = Tag.PG_DO_TERM_SHARED_STMT
    · rw [if_pos ⟨rfl, ht⟩] at h
      rw [ht]
      exact (List.mem_filter.mp h).1
    · rwa [if_neg (by simp [ht])] at h
theorem ownAll_true : ∀ (ks : List Sh), ∀ e ∈ Sh.ownAll true ks, e ∈ Sh.ownAll false ks
  | [], e, h => h
  | k :: ks, e, h => by
    rw [Sh.ownAll] at h ⊢
    rcases List.mem_append.mp h with h | h
    · exact List.mem_append_left _ (own_true k e h)
    · exact List.mem_append_right _ (ownAll_true ks e h)
end

theorem ownAll_append (b : Bool) (f f' : List Sh) : Sh.ownAll b (f ++ f') = Sh.ownAll b f ++ Sh.ownAll b f' := by
  induction f with
  | nil => rfl
  | cons x f ih => simp [Sh.ownAll, ih]

theorem ownAll_under (tag : Int) (f : List Sh) : ∀ e ∈ Sh.ownAll false (under tag f), e ∈ Sh.ownAll false f := by
  intro e h
  rw [under] at h
  split at h
  · exact h
  · simp only [Sh.ownAll, Sh.own, List.append_nil] at h
    rw [if_neg (by simp)] at h
    cases hb : decide (tag = Tag.PG_INNER_SHARED_DO_CONSTRUCT) with
    | true => rw [hb] at h; exact ownAll_true f e h
    | false => rw [hb] at h; exact h

/-! ### What is kept -/

section
variable {G : Nat × SNode → Prop}

/-- From `s` to `s'`: trees are given to statements from the current one on only, and all of them are good. -/
structure Kept (G : Nat × SNode → Prop) (s s' : PState) : Prop where
  stmts : s'.stmts = s.stmts
  hi : s'.hi = s.hi
  pos : s.pos ≤ s'.pos
  trees : ∀ i, i < s.pos → s'.treeOf i = s.treeOf i
  good : ∀ e ∈ s'.attached, e ∈ s.attached ∨ G e

theorem Kept.refl (s : PState) : Kept G s s := ⟨rfl, rfl, Nat.le_refl _, fun _ _ => rfl, fun _ h => .inl h⟩

theorem Kept.trans {s s' s'' : PState} (h1 : Kept G s s') (h2 : Kept G s' s'') : Kept G s s'' where
  stmts := h2.stmts.trans h1.stmts
  hi := h2.hi.trans h1.hi
  pos := Nat.le_trans h1.pos h2.pos
  trees := fun i hi => (h2.trees i (Nat.lt_of_lt_of_le hi h1.pos)).trans (h1.trees i hi)
  good := fun e he => (h2.good e he).elim (h1.good e) .inr

theorem Kept.same {s s' s'' : PState} (h : Kept G s s') (h1 : s''.stmts = s'.stmts) (h2 : s''.hi = s'.hi) (h3 : s''.pos = s'.pos)
    (h4 : s''.attached = s'.attached) : Kept G s s'' where
  stmts := h1.trans h.stmts
  hi := h2.trans h.hi
  pos := by rw [h3]; exact h.pos
  trees := fun i hi => by rw [PState.treeOf, h4]; exact h.trees i hi
  good := fun e he => h.good e (by rwa [h4] at he)

theorem Kept.taken {s : PState} {t : SNode} (hg : G (s.pos, t)) : Kept G s (s.attach t).advance := by
  obtain ⟨h1, h2, _, _, _, h6, h7⟩ := advance_eq (s.attach t)
  refine ⟨h1, h2, ?_, fun i hi => ?_, fun e he => ?_⟩
  · simp only [PState.attach] at h7 ⊢; omega
  · rw [PState.treeOf, h6, PState.attach, List.find?_cons_of_neg (by simp; omega)]; rfl
  · rw [h6, PState.attach] at he
    rcases List.mem_cons.mp he with rfl | he
    · exact .inr hg
    · exact .inl he

/-- The statement of a leaf has the tree that the leaf was made from, unless it is the hidden element. -/
def LeafAt (G : Nat × SNode → Prop) (s : PState) (e : Nat × Int) : Prop :=
  e.1 = s.hi ∨ (e.1 < s.pos ∧ ∃ n, s.treeOf e.1 = some n ∧ n.tag = e.2 ∧ G (e.1, n))

theorem LeafAt.kept {s s' : PState} {e : Nat × Int} (h : LeafAt G s e) (hk : Kept G s s') : LeafAt G s' e := by
  rcases h with h | ⟨h1, n, h2, h3⟩
  · exact .inl (by rw [hk.hi]; exact h)
  · exact .inr ⟨Nat.lt_of_lt_of_le h1 hk.pos, n, by rw [hk.trees _ h1]; exact h2, h3⟩

theorem LeafAt.taken (s : PState) (t : SNode) (hg : G (s.pos, t)) : LeafAt G (s.attach t).advance (s.pos, t.tag) := by
  obtain ⟨_, h2, _, _, _, h6, h7⟩ := advance_eq (s.attach t)
  rcases h7 with ⟨_, h7⟩ | ⟨h7, _⟩
  · exact .inl (by rw [h2]; exact h7)
  · refine .inr ⟨by rw [h7]; exact Nat.lt_succ_self _, t, ?_, rfl, hg⟩
    rw [PState.treeOf, h6, PState.attach, List.find?_cons_of_pos (by simp)]
    rfl

/-- All leaves of some branches are right. -/
def Leaves (G : Nat × SNode → Prop) (s : PState) (f : List Sh) : Prop := ∀ e ∈ Sh.ownAll false f, LeafAt G s e

theorem Leaves.nil (s : PState) : Leaves G s [] := fun _ h => by cases h

theorem Leaves.append {s : PState} {f f' : List Sh} (h : Leaves G s f) (h' : Leaves G s f') : Leaves G s (f ++ f') := by
  intro e he
  rw [ownAll_append] at he
  exact (List.mem_append.mp he).elim (h e) (h' e)

theorem Leaves.kept {s s' : PState} {f : List Sh} (h : Leaves G s f) (hk : Kept G s s') : Leaves G s' f := fun e he => (h e he).kept hk

theorem Leaves.under {s : PState} {f : List Sh} (tag : Int) (h : Leaves G s f) : Leaves G s (under tag f) :=
  fun e he => h e (ownAll_under tag f e he)

theorem Leaves.one {s : PState} {i : Nat} {t : Int} (h : LeafAt G s (i, t)) : Leaves G s [.leaf i t] := by
  intro e he
  simp only [Sh.ownAll, Sh.own, List.append_nil, List.mem_singleton] at he
  rw [he]; exact h

theorem Leaves.inner {s : PState} {f : List Sh} (tag : Int) (h : Leaves G s f) : Leaves G s [.inner tag f] := by
  intro e he
  simp only [Sh.ownAll, Sh.own, List.append_nil] at he
  rw [if_neg (by simp)] at he
  cases hb : decide (tag = Tag.PG_INNER_SHARED_DO_CONSTRUCT) with
  | true => rw [hb] at he; exact h e (ownAll_true f e he)
  | false => rw [hb] at he; exact h e he

/-- What holds of every result. -/
def Atts (G : Nat × SNode → Prop) (s : PState) (o : POut) : Prop := Kept G s o.s ∧ Leaves G o.s (branchesOf o.tree)

theorem Atts.noMatch {s s' : PState} (h : Kept G s s') : Atts G s (noMatch s') := ⟨h, .nil _⟩

end

section
variable {f : T → PState → PRes POut} {c : R → Bool} {g : PR → PBody} {l : List LStmt} {sp : StmtP} {G : Nat × SNode → Prop}

/-- The inner parsers keep it. -/
def AttKeeps (G : Nat × SNode → Prop) (c : R → Bool) (l : List LStmt) (f : T → PState → PRes POut) : Prop :=
  ∀ p s o, p.only c = true → s.stmts = l → f p s = .ok o → Atts G s o

/-- The trees of the statement parsers are good. -/
structure Gives (G : Nat × SNode → Prop) (c : R → Bool) (l : List LStmt) (sp : StmtP) : Prop where
  yes : ∀ r, c r = true → ∀ (s : PState) (st : LStmt) (t : SNode) q, s.stmts = l → s.cur = .ok st → sp r st.strm = .ok (some t, q) → G (s.pos, t)
  back : ∀ s q, sp .end_do s = .ok (none, q) → q = s
  act : ∀ s t q, sp .action_stmt s = .ok (some t, q) → t.tag = Tag.SG_ACTION_STMT

theorem alts_atts (hf : AttKeeps G c l f) : ∀ ps s o, T.onlyAll c ps = true → s.stmts = l → altsLoop f ps s = .ok o → Atts G s o
  | [], s, o, _, _, h => by
    simp only [altsLoop] at h
    injection h with h; subst h; exact .noMatch (.refl s)
  | p :: ps, s, o, hp, hs, h => by
    simp only [T.onlyAll, Bool.and_eq_true] at hp
    simp only [altsLoop] at h
    pbind h with q hq
    have hi := hf p s q hp.1 hs hq
    by_cases hk : q.ok = true
    · rw [if_pos hk] at h; injection h with h; subst h; exact hi
    · rw [if_neg hk] at h
      have h2 := alts_atts hf ps q.s o hp.2 (hi.1.stmts.trans hs) h
      exact ⟨hi.1.trans h2.1, h2.2⟩

theorem seq_atts (hf : AttKeeps G c l f) : ∀ ps s acc tag b r, T.onlyAll c ps = true → s.stmts = l → Holds acc tag b → Leaves G s b →
    seqLoop f ps s acc = .ok r → ∃ b', Holds r.1 tag b' ∧ Leaves G r.2.2 b' ∧ Kept G s r.2.2
  | [], s, acc, tag, b, r, _, _, ha, hl, h => by
    simp only [seqLoop] at h
    injection h with h; subst h; exact ⟨b, ha, hl, .refl s⟩
  | p :: ps, s, acc, tag, b, r, hp, hs, ha, hl, h => by
    simp only [T.onlyAll, Bool.and_eq_true] at hp
    simp only [seqLoop] at h
    pbind h with o ho
    have hi := hf p s o hp.1 hs ho
    have hl' := (hl.kept hi.1).append hi.2
    by_cases hk : o.ok = true
    · rw [if_pos hk] at h
      obtain ⟨b', h1, h2, h3⟩ := seq_atts hf ps o.s _ tag _ r hp.2 (hi.1.stmts.trans hs) (ha.attach o.tree) hl' h
      exact ⟨b', h1, h2, hi.1.trans h3⟩
    · rw [if_neg hk] at h; injection h with h; subst h
      exact ⟨_, ha.attach o.tree, hl', hi.1⟩

theorem star_atts (hf : AttKeeps G c l f) {p : T} (hp : p.only c = true) : ∀ n s acc tag b r, s.stmts = l → Holds acc tag b → Leaves G s b →
    starLoop f p n s acc = .ok r → ∃ b', Holds r.1 tag b' ∧ Leaves G r.2 b' ∧ Kept G s r.2
  | 0, s, acc, tag, b, r, _, _, _, h => by simp only [starLoop] at h; cases h
  | n + 1, s, acc, tag, b, r, hs, ha, hl, h => by
    simp only [starLoop] at h
    by_cases hg : s.good = true
    · rw [if_pos hg] at h
      pbind h with o ho
      have hi := hf p s o hp hs ho
      have hl' := (hl.kept hi.1).append hi.2
      by_cases hk : o.ok = true
      · rw [if_pos hk] at h
        obtain ⟨b', h1, h2, h3⟩ := star_atts hf hp n o.s _ tag _ r (hi.1.stmts.trans hs) (ha.attach o.tree) hl' h
        exact ⟨b', h1, h2, hi.1.trans h3⟩
      · rw [if_neg hk] at h; injection h with h; subst h
        exact ⟨_, ha.attach o.tree, hl', hi.1⟩
    · rw [if_neg hg] at h; injection h with h; subst h
      exact ⟨b, ha, hl, .refl s⟩

theorem block_atts (hf : AttKeeps G c l f) : ∀ n s acc tag b r, s.stmts = l → Holds acc tag b → Leaves G s b →
    blockLoop f n s acc = .ok r → ∃ b', Holds r.1 tag b' ∧ Leaves G r.2 b' ∧ Kept G s r.2
  | 0, s, acc, tag, b, r, _, _, _, h => by simp only [blockLoop] at h; cases h
  | n + 1, s, acc, tag, b, r, hs, ha, hl, h => by
    simp only [blockLoop] at h
    pbind h with o ho
    have hi := hf _ s o rfl hs ho
    have hl' := (hl.kept hi.1).append hi.2
    cases ht : o.tree with
    | none =>
      rw [ht] at h hl'
      injection h with h; subst h
      exact ⟨b, ha, by simpa [branchesOf] using hl', hi.1⟩
    | some t =>
      rw [ht] at h hl'
      obtain ⟨b', h1, h2, h3⟩ := block_atts hf n o.s _ tag _ r (hi.1.stmts.trans hs) (ha.hoist (d := t)) hl' h
      exact ⟨b', h1, h2, hi.1.trans h3⟩

/-- What is known of the end of a do. -/
def EndAtts (G : Nat × SNode → Prop) (s : PState) (e : Option DoEnd × PState) : Prop :=
  Kept G s e.2 ∧ ∀ d, e.1 = some d → Kept G s d.s ∧
    ((d.cons = Tag.PG_INNER_SHARED_DO_CONSTRUCT ∧ d.pg = Tag.PG_DO_TERM_SHARED_STMT ∧ d.sg = Tag.SG_ACTION_STMT) ∨ LeafAt G d.s (s.pos, d.sg))

theorem LeafAt.stack {s : PState} {e : Nat × Int} {k : LabelStack} (h : LeafAt G s e) : LeafAt G { s with stack := k } e := h

theorem EndAtts.stack {s : PState} {k : LabelStack} {e : Option DoEnd × PState} (h : EndAtts G { s with stack := k } e) : EndAtts G s e := by
  have hs : Kept G s { s with stack := k } := (Kept.refl s).same rfl rfl rfl rfl
  exact ⟨hs.trans h.1, fun d hd => ⟨hs.trans (h.2 d hd).1, (h.2 d hd).2⟩⟩

theorem doEnd_atts (hG : Gives G c l sp) (hc : PBody.legacyDo.only c = true) {s : PState} (hs : s.stmts = l) {e : Option DoEnd × PState} (h : doEnd sp s = .ok e) :
    EndAtts G s e := by
  have hc' := hc
  simp only [PBody.only, Bool.and_eq_true] at hc'
  unfold doEnd at h
  pbind h with st hst
  have hst := up_ok hst
  by_cases h1 : st.label ≤ 0
  · rw [if_pos h1] at h
    unfold endPlain at h
    pbind h with o ho
    obtain ⟨o1, o2⟩ := o
    cases o1 with
    | none => injection h with h; subst h; exact ⟨.refl s, fun d hd => by cases hd⟩
    | some t =>
      injection h with h; subst h
      refine ⟨.refl s, fun d hd => ?_⟩
      cases hd
      exact ⟨.taken (hG.yes _ hc'.1.1.2 s st t _ hs hst ho), .inr (.taken s t (hG.yes _ hc'.1.1.2 s st t _ hs hst ho))⟩
  · rw [if_neg h1] at h
    pbind h with lv hlv
    by_cases h2 : lv.1 ≤ -1
    · rw [if_pos h2] at h; cases h
    · rw [if_neg h2] at h
      refine EndAtts.stack (k := lv.2) ?_
      generalize hs' : ({ s with stack := lv.2 } : PState) = s' at h
      have hstm : s'.stmts = l := by rw [← hs']; exact hs
      have hcur : s'.cur = .ok st := by rw [← hs']; exact hst
      by_cases h3 : lv.1 > 0
      · rw [if_pos h3] at h
        unfold endShared at h
        pbind h with o ho
        obtain ⟨o1, o2⟩ := o
        cases o1 with
        | none => injection h with h; subst h; exact ⟨.refl _, fun d hd => by cases hd⟩
        | some t =>
          simp only at h
          pbind h with k hk
          injection h with h; subst h
          refine ⟨.refl _, fun d hd => ?_⟩
          cases hd
          by_cases hl : lv.1 = 1
          · simp only [hl, if_true]
            exact ⟨(Kept.taken (hG.yes _ hc'.1.2 s' st t _ hstm hcur ho)).same rfl rfl rfl rfl, .inr (LeafAt.taken s' t (hG.yes _ hc'.1.2 s' st t _ hstm hcur ho))⟩
          · simp only [hl, if_false]
            exact ⟨(Kept.refl s').same rfl rfl rfl rfl, .inl ⟨trivial, trivial, hG.act _ _ _ ho⟩⟩
      · rw [if_neg h3] at h
        unfold endSingle at h
        pbind h with o ho
        obtain ⟨o1, o2⟩ := o
        cases o1 with
        | some t =>
          simp only at h
          pbind h with k hk
          injection h with h; subst h
          refine ⟨.refl _, fun d hd => ?_⟩
          cases hd
          exact ⟨(Kept.taken (hG.yes _ hc'.2 s' st t _ hstm hcur ho)).same rfl rfl rfl rfl, .inr (LeafAt.taken s' t (hG.yes _ hc'.2 s' st t _ hstm hcur ho))⟩
        | none =>
          simp only at h
          pbind h with q hq
          have hb := hG.back _ _ ho
          subst hb
          obtain ⟨q1, q2⟩ := q
          cases q1 with
          | none => injection h with h; subst h; exact ⟨.refl _, fun d hd => by cases hd⟩
          | some t =>
            simp only at h
            pbind h with k hk
            injection h with h; subst h
            refine ⟨.refl _, fun d hd => ?_⟩
            cases hd
            exact ⟨(Kept.taken (hG.yes _ hc'.1.2 s' st t _ hstm hcur hq)).same rfl rfl rfl rfl, .inr (LeafAt.taken s' t (hG.yes _ hc'.1.2 s' st t _ hstm hcur hq))⟩

theorem do_atts (hsp : NoHoist c sp) (hf : AttKeeps G c l f) (hG : Gives G c l sp) (hc : PBody.legacyDo.only c = true) {k : Nat} {s : PState}
    (hs : s.stmts = l) {o : POut} (h : runDo sp f k s = .ok o) : Atts G s o := by
  have hc' := hc
  simp only [PBody.only, Bool.and_eq_true] at hc'
  unfold runDo at h
  pbind h with st hst
  pbind h with q hq
  have hst := up_ok hst
  obtain ⟨q1, q2⟩ := q
  cases q1 with
  | none => injection h with h; subst h; exact .noMatch (.refl s)
  | some t =>
    simp only at h
    pbind h with label hlabel
    generalize hs0 : (if label > 0 then { s with stack := s.stack.push label } else s : PState) = s0 at h
    pbind h with w hw
    pbind h with e he
    have hk0 : Kept G s s0 := by
      rw [← hs0]
      by_cases hl : label > 0
      · rw [if_pos hl]; exact (Kept.refl s).same rfl rfl rfl rfl
      · rw [if_neg hl]; exact .refl s
    have hpos : s0.pos = s.pos := by rw [← hs0]; by_cases hl : label > 0 <;> simp [hl]
    have hgt : G (s0.pos, t) := by rw [hpos]; exact hG.yes _ hc'.1.1.1 s st t _ hs hst hq
    have hk1 : Kept G s (s0.attach t).advance := hk0.trans (.taken hgt)
    have hl1 : LeafAt G (s0.attach t).advance (s.pos, t.tag) := by rw [← hpos]; exact .taken s0 t hgt
    obtain ⟨b, b1, b2, b3⟩ := block_atts hf k _ _ _ [] w (hk1.stmts.trans hs) (Holds.new Tag.PG_BLOCK none) (.nil _) hw
    have hk2 := hk1.trans b3
    have he' := doEnd_atts hG hc (hk2.stmts.trans hs) he
    obtain ⟨e1, e2⟩ := e
    cases e1 with
    | none =>
      injection h with h; subst h
      exact .noMatch ((hk2.trans he'.1).same rfl rfl rfl rfl)
    | some d =>
      simp only at h
      pbind h with n hn
      injection h with h; subst h
      obtain ⟨d1, d2⟩ := he'.2 d rfl
      refine ⟨hk2.trans d1, ?_⟩
      -- the tree
      have hconf := doEnd_conf (L := fun _ _ _ => True) hsp hc ⟨fun _ _ _ _ _ _ _ _ => trivial, hG.back⟩ (hk2.stmts.trans hs) he d rfl
      have ht := doTree_conf (hsp _ hc'.1.1.1 _ _ _ hq) b1 hconf (up_ok hn)
      show Leaves G d.s (branchesOf (some n))
      rw [ht]
      have a1 : Leaves G d.s [.leaf s.pos t.tag] := .one ((hl1.kept b3).kept d1)
      have a2 := b2.kept d1
      split
      · refine .inner _ (a1.append ((Leaves.inner _ a2).append (.one ?_)))
        rcases d2 with d2 | d2
        · exfalso
          rename_i hcons
          rw [d2.1] at hcons
          exact absurd hcons (by decide)
        · exact d2
      · refine .inner _ ?_
        rcases d2 with ⟨d2, d3, d4⟩ | d2
        · rw [d2, d3, d4]
          intro e he
          refine (a1.append a2) e ?_
          rw [ownAll_append]
          simp only [Sh.ownAll, Sh.own, List.append_nil] at he ⊢
          simpa [Sh.ownAll] using he
        · exact .inner _ (a1.append ((Leaves.inner _ a2).append (.inner _ (.one d2))))

theorem seqEnd_atts {tag : Int} {b : List Sh} {s : PState} {r : PNode × Bool × PState} {o : POut} (ha : Holds r.1 tag b) (hl : Leaves G r.2.2 b)
    (hk : Kept G s r.2.2)
    (h : (if r.2.1 then do
        let n ← up (coverBranches r.1)
        .ok ⟨some n, true, r.2.2⟩
      else do
        let s' ← up r.2.2.complain
        .ok (noMatch s'.giveUp) : PRes POut) = .ok o) : Atts G s o := by
  by_cases hkk : r.2.1 = true
  · rw [if_pos hkk] at h
    pbind h with n hn
    injection h with h; subst h
    refine ⟨hk, ?_⟩
    show Leaves G _ (branchesOf (some n))
    rw [(ha.cover (up_ok hn)).branches]
    exact hl.under tag
  · rw [if_neg hkk] at h
    pbind h with s' hs'
    injection h with h; subst h
    rw [complain_ok (up_ok hs')]
    exact .noMatch (hk.same rfl rfl rfl rfl)

theorem step_atts (hsp : NoHoist c sp) (hg : ∀ r, (g r).only c = true) (hf : AttKeeps G c l f) (hG : Gives G c l sp) {k : Nat} {p : T}
    (hp : p.only c = true) {s : PState} (hs : s.stmts = l) {o : POut} (h : step sp g f k p s = .ok o) : Atts G s o := by
  cases p with
  | alts tag ps =>
    simp only [step] at h
    rw [T.only] at hp
    pbind h with q hq
    have hi := alts_atts hf ps s q hp hs hq
    by_cases hk : q.ok = true
    · rw [if_pos hk] at h
      cases ht : q.tree with
      | none => rw [ht] at h; cases h
      | some t =>
        rw [ht] at h
        simp only at h
        pbind h with n hn
        injection h with h; subst h
        refine ⟨hi.1, ?_⟩
        show Leaves G _ (branchesOf (some n))
        rw [(((Holds.new tag none).hoist (d := t)).cover (up_ok hn)).branches, List.nil_append, ← ht]
        exact hi.2.under tag
    · rw [if_neg hk] at h; injection h with h; subst h
      exact .noMatch hi.1
  | endStream =>
    simp only [step] at h
    by_cases hk : s.good = true
    · rw [if_pos hk] at h
      pbind h with s' hs'
      injection h with h; subst h
      rw [complain_ok (up_ok hs')]
      exact .noMatch ((Kept.refl s).same rfl rfl rfl rfl)
    · rw [if_neg hk] at h; injection h with h; subst h
      exact ⟨.refl s, .nil _⟩
  | opt p =>
    simp only [step] at h
    rw [T.only] at hp
    pbind h with q hq
    have hi := hf p s q hp hs hq
    cases ht : q.tree with
    | none =>
      rw [ht] at h
      injection h with h; subst h
      exact ⟨hi.1, .nil _⟩
    | some t =>
      rw [ht] at h
      simp only at h
      pbind h with n hn
      injection h with h; subst h
      refine ⟨hi.1, ?_⟩
      show Leaves G _ (branchesOf (some n))
      rw [recover_branches (up_ok hn), ← ht]
      exact hi.2
  | optSeq tag ps =>
    simp only [step] at h
    rw [T.only] at hp
    pbind h with r hr
    pbind h with n hn
    injection h with h; subst h
    obtain ⟨b, h1, h2, h3⟩ := seq_atts hf ps s _ tag [] r hp hs (Holds.new tag none) (.nil _) hr
    refine ⟨h3, ?_⟩
    show Leaves G _ (branchesOf (some n))
    rw [(h1.cover (up_ok hn)).branches]
    exact h2.under tag
  | plus tag p =>
    simp only [step] at h
    rw [T.only] at hp
    by_cases hg' : s.good = true
    · rw [if_pos hg'] at h
      pbind h with q hq
      have hi := hf p s q hp hs hq
      by_cases hk : q.ok = true
      · rw [if_pos hk] at h
        pbind h with r hr
        pbind h with n hn
        injection h with h; subst h
        obtain ⟨b, h1, h2, h3⟩ := star_atts hf hp k q.s _ tag _ r (hi.1.stmts.trans hs) ((Holds.new tag none).attach q.tree) (by simpa using hi.2) hr
        refine ⟨hi.1.trans h3, ?_⟩
        show Leaves G _ (branchesOf (some n))
        rw [(h1.cover (up_ok hn)).branches]
        exact h2.under tag
      · rw [if_neg hk] at h; injection h with h; subst h
        exact .noMatch hi.1
    · rw [if_neg hg'] at h; injection h with h; subst h
      exact .noMatch (.refl s)
  | seq tag ps =>
    simp only [step] at h
    rw [T.only] at hp
    pbind h with r hr
    obtain ⟨b, h1, h2, h3⟩ := seq_atts hf ps s _ tag [] r hp hs (Holds.new tag none) (.nil _) hr
    exact seqEnd_atts h1 h2 h3 h
  | seqIf tag p ps =>
    simp only [step] at h
    rw [T.only, Bool.and_eq_true] at hp
    pbind h with q hq
    have hi := hf p s q hp.1 hs hq
    by_cases hk : q.ok = true
    · rw [if_pos hk] at h
      pbind h with r hr
      obtain ⟨b, h1, h2, h3⟩ := seq_atts hf ps q.s _ tag _ r hp.2 (hi.1.stmts.trans hs) ((Holds.new tag none).attach q.tree) (by simpa using hi.2) hr
      exact seqEnd_atts h1 h2 (hi.1.trans h3) h
    · rw [if_neg hk] at h; injection h with h; subst h
      exact .noMatch hi.1
  | star p =>
    simp only [step] at h
    rw [T.only] at hp
    pbind h with r hr
    pbind h with n hn
    injection h with h; subst h
    obtain ⟨b, h1, h2, h3⟩ := star_atts hf hp k s _ _ [] r hs (Holds.new Tag.HOIST none) (.nil _) hr
    refine ⟨h3, ?_⟩
    show Leaves G _ (branchesOf (some n))
    rw [(h1.cover (up_ok hn)).branches]
    exact h2.under _
  | stmt r =>
    simp only [step] at h
    rw [T.only] at hp
    unfold runStmt at h
    pbind h with st hst
    pbind h with q hq
    obtain ⟨q1, q2⟩ := q
    cases q1 with
    | none => injection h with h; subst h; exact .noMatch (.refl s)
    | some t =>
      injection h with h; subst h
      refine ⟨.taken (hG.yes _ hp s st t _ hs (up_ok hst) hq), ?_⟩
      show Leaves G _ (branchesOf (some _))
      rw [leaf_branches (hsp _ hp _ _ _ hq)]
      exact .one (.taken s t (hG.yes _ hp s st t _ hs (up_ok hst) hq))
  | tagIf tag p =>
    simp only [step] at h
    rw [T.only] at hp
    pbind h with q hq
    have hi := hf p s q hp hs hq
    cases ht : q.tree with
    | none =>
      rw [ht] at h; injection h with h; subst h
      exact hi
    | some t =>
      rw [ht] at h
      simp only at h
      pbind h with n hn
      injection h with h; subst h
      refine ⟨hi.1, ?_⟩
      show Leaves G _ (branchesOf (some n))
      rw [(((Holds.new tag none).hoist (d := t)).cover (up_ok hn)).branches, List.nil_append, ← ht]
      exact hi.2.under tag
  | rule r =>
    simp only [step] at h
    have hgr := hg r
    cases hb : g r with
    | comb p =>
      rw [hb] at h hgr
      exact hf p s o hgr hs h
    | exec p =>
      rw [hb] at h hgr
      simp only [runBody] at h
      pbind h with st hst
      by_cases ht : s.stack.isTop st.label = true
      · rw [if_pos ht] at h; injection h with h; subst h; exact .noMatch (.refl s)
      · rw [if_neg ht] at h
        exact hf p s o hgr hs h
    | legacyDo =>
      rw [hb] at h hgr
      exact do_atts hsp hf hG hgr hs h

end

theorem eval_atts {sp : StmtP} {c : R → Bool} {g : PR → PBody} {G : Nat × SNode → Prop} {l : List LStmt} (hsp : NoHoist c sp)
    (hg : ∀ r, (g r).only c = true) (hG : Gives G c l sp) : ∀ n, AttKeeps G c l (eval sp g n)
  | 0 => by intro p s o _ _ h; cases h
  | n + 1 => fun _ _ _ hp hs h => step_atts hsp hg (eval_atts hsp hg hG n) hG hp hs h

end PP
end FLPR
