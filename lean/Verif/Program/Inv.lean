import Verif.Program.TreeLemmas
/-!
# What every program level parser keeps
-/

namespace FLPR
namespace PP
open Spec
open SP (R SNode Rng Strm PRes PFail up up_ok)

/-- The statements `l` come in order, and none is before `a` or after `b`. -/
structure Within (a : Nat) (l : List Nat) (b : Nat) : Prop where
  sorted : l.Pairwise (· ≤ ·)
  low : ∀ x ∈ l, a ≤ x
  high : ∀ x ∈ l, x ≤ b

theorem Within.nil (a b : Nat) : Within a [] b := ⟨by simp, by simp, by simp⟩

theorem Within.append {a m b : Nat} {l l' : List Nat} (h1 : Within a l m) (h2 : Within m l' b) (ha : a ≤ m)
    (hb : m ≤ b) : Within a (l ++ l') b := by
  refine ⟨List.pairwise_append.mpr ⟨h1.sorted, h2.sorted, fun x hx y hy => ?_⟩, fun x hx => ?_, fun x hx => ?_⟩
  · exact Nat.le_trans (h1.high x hx) (h2.low y hy)
  · rcases List.mem_append.mp hx with h | h
    · exact h1.low x h
    · exact Nat.le_trans ha (h2.low x h)
  · rcases List.mem_append.mp hx with h | h
    · exact Nat.le_trans (h1.high x h) hb
    · exact h2.high x h

/-- From `s` to `s'`, with the statements `l` taken into the tree. -/
structure Step (s : PState) (l : List Nat) (s' : PState) : Prop where
  stmts : s'.stmts = s.stmts
  hi : s'.hi = s.hi
  pos : s.pos ≤ s'.pos
  bound : s.pos ≤ s.hi → s'.pos ≤ s.hi
  abandoned : s.abandoned ≤ s'.abandoned
  complaints : s.complaints ≤ s'.complaints
  within : Within s.pos l s'.pos
  span : s'.abandoned = s.abandoned → Span s.pos l s'.pos

theorem Step.refl (s : PState) : Step s [] s :=
  ⟨rfl, rfl, Nat.le_refl _, id, Nat.le_refl _, Nat.le_refl _, .nil _ _, fun _ => .nil _⟩

theorem Step.trans {s s' s'' : PState} {l l' : List Nat} (h1 : Step s l s') (h2 : Step s' l' s'') :
    Step s (l ++ l') s'' where
  stmts := h2.stmts.trans h1.stmts
  hi := h2.hi.trans h1.hi
  pos := Nat.le_trans h1.pos h2.pos
  bound := fun h => by
    have := h2.bound (by rw [h1.hi]; exact h1.bound h)
    rwa [h1.hi] at this
  abandoned := Nat.le_trans h1.abandoned h2.abandoned
  complaints := Nat.le_trans h1.complaints h2.complaints
  within := h1.within.append h2.within h1.pos h2.pos
  span := fun h => by
    have a1 := h1.abandoned
    have a2 := h2.abandoned
    exact (h1.span (by omega)).append (h2.span (by omega))

/-- Whatever else happens to the state in between. -/
theorem Step.same {s s' s'' : PState} {l : List Nat} (h : Step s l s') (h1 : s''.stmts = s'.stmts)
    (h2 : s''.hi = s'.hi) (h3 : s''.pos = s'.pos) (h4 : s''.abandoned = s'.abandoned)
    (h5 : s'.complaints ≤ s''.complaints) : Step s l s'' where
  stmts := h1.trans h.stmts
  hi := h2.trans h.hi
  pos := by rw [h3]; exact h.pos
  bound := fun q => by rw [h3]; exact h.bound q
  abandoned := by rw [h4]; exact h.abandoned
  complaints := Nat.le_trans h.complaints h5
  within := by rw [h3]; exact h.within
  span := fun q => by rw [h3]; exact h.span (h4 ▸ q)

theorem Step.lost {s s' : PState} {l : List Nat} (h : Step s l s') : Step s [] s'.giveUp where
  stmts := h.stmts
  hi := h.hi
  pos := h.pos
  bound := h.bound
  abandoned := Nat.le_succ_of_le h.abandoned
  complaints := h.complaints
  within := .nil _ _
  span := fun q => by
    have := h.abandoned
    simp only [PState.giveUp] at q
    omega

theorem advance_eq (s : PState) : s.advance.stmts = s.stmts ∧ s.advance.hi = s.hi ∧
    s.advance.abandoned = s.abandoned ∧ s.advance.complaints = s.complaints ∧ s.advance.stack = s.stack ∧
    s.advance.attached = s.attached ∧ (s.advance.pos = s.pos ∧ s.pos = s.hi ∨ s.advance.pos = s.pos + 1 ∧ s.pos ≠ s.hi) := by
  unfold PState.advance
  split <;> simp_all

theorem Step.taken (s : PState) (t : SNode) : Step s [s.pos] (s.attach t).advance := by
  obtain ⟨h1, h2, h3, h4, _, _, h7⟩ := advance_eq (s.attach t)
  simp only [PState.attach] at h1 h2 h3 h4 h7
  refine ⟨h1, h2, ?_, ?_, by rw [PState.attach, h3], by rw [PState.attach, h4], ?_, fun _ => Span.one ?_⟩
  · simp only [PState.attach]; omega
  · simp only [PState.attach]; omega
  · refine ⟨by simp, by simp, ?_⟩
    simp only [PState.attach, List.mem_singleton]; omega
  · simp only [PState.attach]; omega

theorem Step.shared (s : PState) : Step s [s.pos] s :=
  ⟨rfl, rfl, Nat.le_refl _, id, Nat.le_refl _, Nat.le_refl _, ⟨by simp, by simp, by simp⟩,
    fun _ => .one (.inl rfl)⟩

theorem complain_ok {s s' : PState} (h : s.complain = .ok s') : s' = { s with complaints := s.complaints + 1 } := by
  unfold PState.complain at h
  rbind h with x hx
  injection h with h; exact h.symm

theorem Step.complained {s s' s'' : PState} {l : List Nat} (h : Step s l s') (hc : s'.complain = .ok s'') :
    Step s l s'' := by
  rw [complain_ok hc]
  exact h.same rfl rfl rfl rfl (Nat.le_succ _)

/-- What holds of every result. -/
structure Inv (s : PState) (o : POut) : Prop where
  step : Step s (leavesOfOpt o.tree) o.s
  none : o.ok = false → o.tree = none
  donor : ∀ t, o.tree = some t → Donor t

theorem Inv.noMatch {s s' : PState} (h : Step s [] s') : Inv s (noMatch s') :=
  ⟨h, fun _ => rfl, fun _ h => by cases h⟩

theorem Inv.some {s s' : PState} {t : PNode} (h : Step s (leavesOf t) s') (hd : Donor t) {b : Bool} (hb : b = true) :
    Inv s ⟨some t, b, s'⟩ :=
  ⟨h, fun q => by simp [hb] at q, fun u hu => by cases hu; exact hd⟩

theorem Inv.failed {s : PState} {o : POut} (h : Inv s o) (hk : ¬ o.ok = true) : Step s [] o.s := by
  have := h.none (by simpa using hk)
  have h2 := h.step
  rw [this] at h2; exact h2

theorem attachTree_acc {a : PNode} {s : PState} {o : POut} (ha : Acc a) (h : Inv s o) :
    Acc (attachTree a o.tree) ∧ leavesOf (attachTree a o.tree) = leavesOf a ++ leavesOfOpt o.tree := by
  cases ht : o.tree with
  | none => simpa [attachTree, leavesOfOpt] using ha
  | some d => exact hoistBack_acc ha (h.donor d ht)

theorem stmtsOf_new (tag : Int) (r : Rng) : leavesOf (.node tag r none []) = [] := by simp [leavesOf, stmtsOfAll]

theorem Acc.covered {a n : PNode} (ha : Acc a) {s s' : PState} (hs : Step s (leavesOf a) s')
    (h : coverBranches a = .ok n) : Donor n ∧ leavesOf n = leavesOf a := by
  obtain ⟨h1, h2, h3, _⟩ := cover_ok ha hs.within.sorted h
  exact ⟨⟨h1, by simp [h2]⟩, h3⟩

section
variable {f : T → PState → PRes POut} {c : R → Bool}

/-- The inner parsers keep it. -/
def Keeps (c : R → Bool) (f : T → PState → PRes POut) : Prop :=
  ∀ p s o, p.only c = true → f p s = .ok o → Inv s o

theorem alts_inv (hf : Keeps c f) : ∀ ps s o, T.onlyAll c ps = true → altsLoop f ps s = .ok o → Inv s o
  | [], s, o, _, h => by
    simp only [altsLoop] at h
    injection h with h; subst h; exact .noMatch (.refl s)
  | p :: ps, s, o, hp, h => by
    simp only [T.onlyAll, Bool.and_eq_true] at hp
    simp only [altsLoop] at h
    pbind h with q hq
    have hi := hf p s q hp.1 hq
    by_cases hk : q.ok = true
    · rw [if_pos hk] at h; injection h with h; subst h; exact hi
    · rw [if_neg hk] at h
      have h2 := alts_inv hf ps q.s o hp.2 h
      exact ⟨by simpa using (hi.failed hk).trans h2.step, h2.none, h2.donor⟩

theorem seq_inv (hf : Keeps c f) : ∀ ps s acc s0 r, T.onlyAll c ps = true → Acc acc → Step s0 (leavesOf acc) s →
    seqLoop f ps s acc = .ok r → Acc r.1 ∧ Step s0 (leavesOf r.1) r.2.2
  | [], s, acc, s0, r, _, ha, hs, h => by
    simp only [seqLoop] at h
    injection h with h; subst h; exact ⟨ha, hs⟩
  | p :: ps, s, acc, s0, r, hp, ha, hs, h => by
    simp only [T.onlyAll, Bool.and_eq_true] at hp
    simp only [seqLoop] at h
    pbind h with o ho
    have hi := hf p s o hp.1 ho
    obtain ⟨ha1, ha2⟩ := attachTree_acc ha hi
    have hs' := hs.trans hi.step
    rw [← ha2] at hs'
    by_cases hk : o.ok = true
    · rw [if_pos hk] at h
      exact seq_inv hf ps o.s _ s0 r hp.2 ha1 hs' h
    · rw [if_neg hk] at h; injection h with h; subst h
      exact ⟨ha1, hs'⟩

theorem star_inv (hf : Keeps c f) {p : T} (hp : p.only c = true) : ∀ n s acc s0 r, Acc acc → Step s0 (leavesOf acc) s →
    starLoop f p n s acc = .ok r → Acc r.1 ∧ Step s0 (leavesOf r.1) r.2
  | 0, s, acc, s0, r, _, _, h => by simp only [starLoop] at h; cases h
  | n + 1, s, acc, s0, r, ha, hs, h => by
    simp only [starLoop] at h
    by_cases hg : s.good = true
    · rw [if_pos hg] at h
      pbind h with o ho
      have hi := hf p s o hp ho
      obtain ⟨ha1, ha2⟩ := attachTree_acc ha hi
      have hs' := hs.trans hi.step
      rw [← ha2] at hs'
      by_cases hk : o.ok = true
      · rw [if_pos hk] at h
        exact star_inv hf hp n o.s _ s0 r ha1 hs' h
      · rw [if_neg hk] at h; injection h with h; subst h
        exact ⟨ha1, hs'⟩
    · rw [if_neg hg] at h; injection h with h; subst h
      exact ⟨ha, hs⟩

theorem block_inv (hf : Keeps c f) : ∀ n s acc s0 r, Acc acc → Step s0 (leavesOf acc) s →
    blockLoop f n s acc = .ok r → Acc r.1 ∧ Step s0 (leavesOf r.1) r.2 ∧ r.1.tag = acc.tag
  | 0, s, acc, s0, r, _, _, h => by simp only [blockLoop] at h; cases h
  | n + 1, s, acc, s0, r, ha, hs, h => by
    simp only [blockLoop] at h
    pbind h with o ho
    have hi := hf _ s o rfl ho
    obtain ⟨ha1, ha2⟩ := attachTree_acc ha hi
    have hs' := hs.trans hi.step
    rw [← ha2] at hs'
    cases ht : o.tree with
    | none =>
      rw [ht] at h hs'
      injection h with h; subst h
      exact ⟨ha, hs', rfl⟩
    | some t =>
      rw [ht] at h hs' ha1
      obtain ⟨b1, b2, b3⟩ := block_inv hf n o.s _ s0 r ha1 hs' h
      exact ⟨b1, b2, b3.trans (hoistBack_tag _ _)⟩

/-! ### The do construct -/

theorem doTree_inv {doTag : Int} {i j : Nat} {block : PNode} {e : DoEnd} {n : PNode} (h1 : doTag ≠ Tag.HOIST)
    (h2 : e.sg ≠ Tag.HOIST) (hb : Acc block) (hs : ([i] ++ leavesOf block ++ [j]).Pairwise (· ≤ ·))
    (h : doTree doTag i block j e = .ok n) : Donor n ∧ leavesOf n = [i] ++ leavesOf block ++ [j] := by
  unfold doTree at h
  rbind h with b hb'
  rbind h with term ht
  rbind h with sub hsub
  have hl : ∀ t (k : Nat), leavesOf (.node t (some (k, k + 1)) (some k) []) = [k] := by intro t k; simp [leavesOf]
  -- the first statement
  obtain ⟨a1, s1⟩ := hoistBack_acc (Acc.new (if e.cons = Tag.PG_DO_CONSTRUCT then Tag.HOIST else e.cons) none)
    (leaf_donor (i := i) h1)
  rw [stmtsOf_new, hl, List.nil_append] at s1
  -- the body
  have hb2 : Acc (.node (if e.cons = Tag.PG_DO_CONSTRUCT then block.tag else Tag.PG_DO_BODY) block.range
      block.stmt block.kids) := ⟨hb.inner, hb.trees⟩
  have hbs : leavesOf (.node (if e.cons = Tag.PG_DO_CONSTRUCT then block.tag else Tag.PG_DO_BODY) block.range
      block.stmt block.kids) = leavesOf block := by rw [hb2.stmts, hb.stmts]; rfl
  have hso : (leavesOf block).Pairwise (· ≤ ·) :=
    (List.pairwise_append.mp (List.pairwise_append.mp hs).1).2.1
  obtain ⟨c1, c2, c3, _⟩ := cover_ok hb2 (by rw [hbs]; exact hso) hb'
  obtain ⟨a2, s2⟩ := hoistBack_acc a1 (d := b) ⟨c1, by simp [c2]⟩
  rw [s1, c3, hbs] at s2
  -- the last statement
  obtain ⟨a3, s3⟩ := hoistBack_acc (Acc.new e.pg none) (leaf_donor (i := j) h2)
  rw [stmtsOf_new, hl, List.nil_append] at s3
  obtain ⟨d1, d2, d3, _⟩ := cover_ok a3 (by rw [s3]; simp) ht
  obtain ⟨a4, s4⟩ := hoistBack_acc a2 (d := term) ⟨d1, by simp [d2]⟩
  rw [s2, d3, s3] at s4
  obtain ⟨e1, e2, e3, _⟩ := cover_ok a4 (by rw [s4]; exact hs) hsub
  rw [s4] at e3
  obtain ⟨a5, s5⟩ := hoistBack_acc (Acc.new (if e.cons = Tag.PG_DO_CONSTRUCT then Tag.PG_DO_CONSTRUCT
    else Tag.PG_NONBLOCK_DO_CONSTRUCT) none) (d := sub) ⟨e1, by simp [e2]⟩
  rw [stmtsOf_new, e3, List.nil_append] at s5
  obtain ⟨g1, g2, g3, _⟩ := cover_ok a5 (by rw [s5]; exact hs) h
  exact ⟨⟨g1, by simp [g2]⟩, by rw [g3, s5]⟩

/-- What is known of the end of a do. -/
def EndInv (s : PState) (e : Option DoEnd × PState) : Prop :=
  Step s [] e.2 ∧ ∀ d, e.1 = some d → d.sg ≠ Tag.HOIST ∧ Step s [s.pos] d.s

variable {sp : StmtP}

theorem endPlain_inv (hsp : NoHoist c sp) (hc : PBody.legacyDo.only c = true) {st : LStmt} {s : PState}
    {e : Option DoEnd × PState} (h : endPlain sp st s = .ok e) : EndInv s e := by
  simp only [PBody.only, Bool.and_eq_true] at hc
  unfold endPlain at h
  pbind h with o ho
  obtain ⟨o1, o2⟩ := o
  cases o1 with
  | none => injection h with h; subst h; exact ⟨.refl s, fun d hd => by cases hd⟩
  | some t =>
    injection h with h; subst h
    refine ⟨.refl s, fun d hd => ?_⟩
    cases hd
    exact ⟨hsp _ hc.1.1.2 _ _ _ ho, .taken s t⟩

theorem endShared_inv (hsp : NoHoist c sp) (hc : PBody.legacyDo.only c = true) {st : LStmt} {s : PState} {lv : Int}
    {e : Option DoEnd × PState} (h : endShared sp lv st s = .ok e) : EndInv s e := by
  simp only [PBody.only, Bool.and_eq_true] at hc
  unfold endShared at h
  pbind h with o ho
  obtain ⟨o1, o2⟩ := o
  cases o1 with
  | none => injection h with h; subst h; exact ⟨.refl s, fun d hd => by cases hd⟩
  | some t =>
    simp only at h
    pbind h with k hk
    injection h with h; subst h
    refine ⟨.refl s, fun d hd => ?_⟩
    cases hd
    refine ⟨hsp _ hc.1.2 _ _ _ ho, ?_⟩
    by_cases hl : lv = 1
    · simp only [hl, if_true]; exact (Step.taken s t).same rfl rfl rfl rfl (Nat.le_refl _)
    · simp only [hl, if_false]; exact (Step.shared s).same rfl rfl rfl rfl (Nat.le_refl _)

theorem endSingle_inv (hsp : NoHoist c sp) (hc : PBody.legacyDo.only c = true) {st : LStmt} {s : PState}
    {e : Option DoEnd × PState} (h : endSingle sp st s = .ok e) : EndInv s e := by
  simp only [PBody.only, Bool.and_eq_true] at hc
  unfold endSingle at h
  pbind h with o ho
  obtain ⟨o1, o2⟩ := o
  cases o1 with
  | some t =>
    simp only at h
    pbind h with k hk
    injection h with h; subst h
    refine ⟨.refl s, fun d hd => ?_⟩
    cases hd
    exact ⟨hsp _ hc.2 _ _ _ ho, (Step.taken s t).same rfl rfl rfl rfl (Nat.le_refl _)⟩
  | none =>
    simp only at h
    pbind h with q hq
    obtain ⟨q1, q2⟩ := q
    cases q1 with
    | none => injection h with h; subst h; exact ⟨.refl s, fun d hd => by cases hd⟩
    | some t =>
      simp only at h
      pbind h with k hk
      injection h with h; subst h
      refine ⟨.refl s, fun d hd => ?_⟩
      cases hd
      exact ⟨hsp _ hc.1.2 _ _ _ hq, (Step.taken s t).same rfl rfl rfl rfl (Nat.le_refl _)⟩

theorem EndInv.stack {s : PState} {k : LabelStack} {e : Option DoEnd × PState} (h : EndInv { s with stack := k } e) :
    EndInv s e := by
  have hs : Step s [] { s with stack := k } := (Step.refl s).same rfl rfl rfl rfl (Nat.le_refl _)
  refine ⟨hs.trans h.1, fun d hd => ⟨(h.2 d hd).1, hs.trans (h.2 d hd).2⟩⟩

theorem doEnd_inv (hsp : NoHoist c sp) (hc : PBody.legacyDo.only c = true) {s : PState}
    {e : Option DoEnd × PState} (h : doEnd sp s = .ok e) : EndInv s e := by
  unfold doEnd at h
  pbind h with st hst
  by_cases h1 : st.label ≤ 0
  · rw [if_pos h1] at h; exact endPlain_inv hsp hc h
  · rw [if_neg h1] at h
    pbind h with lv hlv
    by_cases h2 : lv.1 ≤ -1
    · rw [if_pos h2] at h; cases h
    · rw [if_neg h2] at h
      by_cases h3 : lv.1 > 0
      · rw [if_pos h3] at h; exact (endShared_inv hsp hc h).stack
      · rw [if_neg h3] at h; exact (endSingle_inv hsp hc h).stack

theorem do_inv (hsp : NoHoist c sp) (hf : Keeps c f) (hc : PBody.legacyDo.only c = true) {k : Nat} {s : PState}
    {o : POut} (h : runDo sp f k s = .ok o) : Inv s o := by
  unfold runDo at h
  pbind h with st hst
  pbind h with q hq
  obtain ⟨q1, q2⟩ := q
  cases q1 with
  | none => injection h with h; subst h; exact .noMatch (.refl s)
  | some t =>
    simp only at h
    pbind h with label hlabel
    pbind h with r hr
    pbind h with e he
    have hs0 : Step s [] (if label > 0 then { s with stack := s.stack.push label } else s) := by
      by_cases hl : label > 0
      · rw [if_pos hl]; exact (Step.refl s).same rfl rfl rfl rfl (Nat.le_refl _)
      · rw [if_neg hl]; exact .refl s
    have hpos : (if label > 0 then { s with stack := s.stack.push label } else s : PState).pos = s.pos := by
      by_cases hl : label > 0 <;> simp [hl]
    have hs1 := hs0.trans (Step.taken _ t)
    obtain ⟨b1, b2, b3⟩ := block_inv hf k _ _ _ r (Acc.new Tag.PG_BLOCK none) (by rw [stmtsOf_new]; exact .refl _) hr
    have hs2 := hs1.trans b2
    have he' := doEnd_inv hsp hc he
    rw [hpos, List.nil_append] at hs2
    obtain ⟨e1, e2⟩ := e
    cases e1 with
    | none =>
      injection h with h; subst h
      exact .noMatch (hs2.trans he'.1).lost
    | some d =>
      simp only at h
      pbind h with n hn
      injection h with h; subst h
      obtain ⟨d1, d2⟩ := he'.2 d rfl
      have hs3 := hs2.trans d2
      have hc' := hc
      simp only [PBody.only, Bool.and_eq_true] at hc'
      obtain ⟨g1, g2⟩ := doTree_inv (hsp _ hc'.1.1.1 _ _ _ hq) d1 b1 hs3.within.sorted (up_ok hn)
      exact .some (by rw [g2]; exact hs3) g1 rfl

/-! ### All the parsers -/

theorem stmt_inv (hsp : NoHoist c sp) {r : R} (hr : c r = true) {s : PState} {o : POut}
    (h : runStmt sp r s = .ok o) : Inv s o := by
  unfold runStmt at h
  pbind h with st hst
  pbind h with q hq
  obtain ⟨q1, q2⟩ := q
  cases q1 with
  | none => injection h with h; subst h; exact .noMatch (.refl s)
  | some t =>
    injection h with h; subst h
    exact .some (by simpa [leavesOf] using Step.taken s t) (leaf_donor (hsp _ hr _ _ _ hq)) rfl

theorem body_inv (hsp : NoHoist c sp) (hf : Keeps c f) {k : Nat} {b : PBody} (hb : b.only c = true) {s : PState}
    {o : POut} (h : runBody sp f k b s = .ok o) : Inv s o := by
  cases b with
  | comb p => exact hf p s o hb h
  | exec p =>
    simp only [runBody] at h
    pbind h with st hst
    by_cases ht : s.stack.isTop st.label = true
    · rw [if_pos ht] at h; injection h with h; subst h; exact .noMatch (.refl s)
    · rw [if_neg ht] at h; exact hf p s o hb h
  | legacyDo => exact do_inv hsp hf hb h

/-- A sequence that is turned into a tree, or given up. -/
theorem seqEnd_inv {s : PState} {r : PNode × Bool × PState} {o : POut} (ha : Acc r.1) (hs : Step s (leavesOf r.1) r.2.2)
    (h : (if r.2.1 then do
        let n ← up (coverBranches r.1)
        .ok ⟨some n, true, r.2.2⟩
      else do
        let s' ← up r.2.2.complain
        .ok (noMatch s'.giveUp) : PRes POut) = .ok o) : Inv s o := by
  by_cases hk : r.2.1 = true
  · rw [if_pos hk] at h
    pbind h with n hn
    injection h with h; subst h
    obtain ⟨d1, d2⟩ := ha.covered hs (up_ok hn)
    exact .some (by rw [d2]; exact hs) d1 rfl
  · rw [if_neg hk] at h
    pbind h with s' hs'
    injection h with h; subst h
    exact .noMatch (hs.complained (up_ok hs')).lost

theorem step_inv {g : PR → PBody} (hsp : NoHoist c sp) (hg : ∀ r, (g r).only c = true) (hf : Keeps c f) {k : Nat} {p : T}
    (hp : p.only c = true) {s : PState} {o : POut} (h : step sp g f k p s = .ok o) : Inv s o := by
  cases p with
  | alts tag ps =>
    simp only [step] at h
    rw [T.only] at hp
    pbind h with q hq
    have hi := alts_inv hf ps s q hp hq
    by_cases hk : q.ok = true
    · rw [if_pos hk] at h
      cases ht : q.tree with
      | none => rw [ht] at h; cases h
      | some t =>
        rw [ht] at h
        simp only at h
        pbind h with n hn
        injection h with h; subst h
        obtain ⟨a1, a2⟩ := attachTree_acc (Acc.new tag none) hi
        rw [ht, stmtsOf_new, List.nil_append] at a2
        rw [ht] at a1
        have hs := hi.step
        rw [ht, ← a2] at hs
        obtain ⟨d1, d2⟩ := a1.covered hs (up_ok hn)
        exact .some (by rw [d2]; exact hs) d1 rfl
    · rw [if_neg hk] at h; injection h with h; subst h
      exact .noMatch (hi.failed hk)
  | endStream =>
    simp only [step] at h
    by_cases hk : s.good = true
    · rw [if_pos hk] at h
      pbind h with s' hs'
      injection h with h; subst h
      exact .noMatch ((Step.refl s).complained (up_ok hs'))
    · rw [if_neg hk] at h; injection h with h; subst h
      exact ⟨.refl s, by simp, by simp⟩
  | opt p =>
    simp only [step] at h
    rw [T.only] at hp
    pbind h with q hq
    have hi := hf p s q hp hq
    have hs := hi.step
    cases ht : q.tree with
    | none =>
      rw [ht] at h hs
      injection h with h; subst h
      exact ⟨hs, by simp, by simp⟩
    | some t =>
      rw [ht] at h hs
      simp only at h
      pbind h with n hn
      injection h with h; subst h
      obtain ⟨d1, d2⟩ := recover_ok (hi.donor t ht) hs.within.sorted (up_ok hn)
      exact .some (by rw [d2]; exact hs) d1 rfl
  | optSeq tag ps =>
    simp only [step] at h
    rw [T.only] at hp
    pbind h with r hr
    pbind h with n hn
    injection h with h; subst h
    obtain ⟨a1, a2⟩ := seq_inv hf ps s _ s r hp (Acc.new tag none) (by rw [stmtsOf_new]; exact .refl _) hr
    obtain ⟨d1, d2⟩ := a1.covered a2 (up_ok hn)
    exact .some (by rw [d2]; exact a2) d1 rfl
  | plus tag p =>
    simp only [step] at h
    rw [T.only] at hp
    by_cases hg' : s.good = true
    · rw [if_pos hg'] at h
      pbind h with q hq
      have hi := hf p s q hp hq
      by_cases hk : q.ok = true
      · rw [if_pos hk] at h
        pbind h with r hr
        pbind h with n hn
        injection h with h; subst h
        obtain ⟨a1, a2⟩ := attachTree_acc (Acc.new tag none) hi
        rw [stmtsOf_new, List.nil_append] at a2
        obtain ⟨b1, b2⟩ := star_inv hf hp k _ _ s r a1 (by rw [a2]; exact hi.step) hr
        obtain ⟨d1, d2⟩ := b1.covered b2 (up_ok hn)
        exact .some (by rw [d2]; exact b2) d1 rfl
      · rw [if_neg hk] at h; injection h with h; subst h
        exact .noMatch (hi.failed hk)
    · rw [if_neg hg'] at h; injection h with h; subst h
      exact .noMatch (.refl s)
  | seq tag ps =>
    simp only [step] at h
    rw [T.only] at hp
    pbind h with r hr
    obtain ⟨a1, a2⟩ := seq_inv hf ps s _ s r hp (Acc.new tag none) (by rw [stmtsOf_new]; exact .refl _) hr
    exact seqEnd_inv a1 a2 h
  | seqIf tag p ps =>
    simp only [step] at h
    rw [T.only, Bool.and_eq_true] at hp
    pbind h with q hq
    have hi := hf p s q hp.1 hq
    by_cases hk : q.ok = true
    · rw [if_pos hk] at h
      pbind h with r hr
      obtain ⟨a1, a2⟩ := attachTree_acc (Acc.new tag none) hi
      rw [stmtsOf_new, List.nil_append] at a2
      obtain ⟨b1, b2⟩ := seq_inv hf ps _ _ s r hp.2 a1 (by rw [a2]; exact hi.step) hr
      exact seqEnd_inv b1 b2 h
    · rw [if_neg hk] at h; injection h with h; subst h
      exact .noMatch (hi.failed hk)
  | star p =>
    simp only [step] at h
    rw [T.only] at hp
    pbind h with r hr
    pbind h with n hn
    injection h with h; subst h
    obtain ⟨b1, b2⟩ := star_inv hf hp k _ _ s r (Acc.new Tag.HOIST none) (by rw [stmtsOf_new]; exact .refl _) hr
    obtain ⟨d1, d2⟩ := b1.covered b2 (up_ok hn)
    exact .some (by rw [d2]; exact b2) d1 rfl
  | stmt r => exact stmt_inv hsp hp h
  | tagIf tag p =>
    simp only [step] at h
    rw [T.only] at hp
    pbind h with q hq
    have hi := hf p s q hp hq
    cases ht : q.tree with
    | none =>
      rw [ht] at h; injection h with h; subst h
      exact hi
    | some t =>
      rw [ht] at h
      simp only at h
      pbind h with n hn
      injection h with h; subst h
      obtain ⟨a1, a2⟩ := attachTree_acc (Acc.new tag none) hi
      rw [ht, stmtsOf_new, List.nil_append] at a2
      rw [ht] at a1
      have hs := hi.step
      rw [ht, ← a2] at hs
      obtain ⟨d1, d2⟩ := a1.covered hs (up_ok hn)
      refine .some (by rw [d2]; exact hs) d1 ?_
      cases hk : q.ok with
      | true => rfl
      | false => rw [hi.none hk] at ht; cases ht
  | rule r => exact body_inv hsp hf (hg r) h

end

theorem eval_inv {sp : StmtP} {c : R → Bool} {g : PR → PBody} (hsp : NoHoist c sp) (hg : ∀ r, (g r).only c = true) :
    ∀ n, Keeps c (eval sp g n)
  | 0 => fun p s o _ h => by cases h
  | n + 1 => fun p s o hp h => step_inv hsp hg (eval_inv hsp hg n) hp h

end PP
end FLPR
