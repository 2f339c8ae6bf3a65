import Verif.Program.Static
/-!
# The leaves of a program tree are statements of the list
-/

namespace FLPR
namespace PP
open Spec
open SP (R SNode Rng Strm PRes PFail up up_ok)

section
variable (k : R → Bool) (c : PR → Bool)

/-- A call of a statement parser. -/
def T.isStmt : T → Bool
  | .stmt _ => true
  | _ => false

mutual
/-- The hidden statement does not get into the tree of a match. -/
def T.safe : T → Bool
  | .alts _ ps => T.safeAll ps
  | .endStream => true
  | .opt p => p.safe
  | .optSeq _ ps => T.safeAll ps
  | .plus _ p => p.isStmt || p.safe
  | .seq _ ps => T.safeSeq ps
  | .seqIf _ p ps => (p.safe || T.takesAny k c ps) && T.safeSeq ps
  | .star p => p.isStmt || p.safe
  | .stmt r => k r
  | .tagIf _ p => p.safe
  | .rule _ => true
def T.safeAll : List T → Bool
  | [] => true
  | p :: ps => p.safe && T.safeAll ps
def T.safeSeq : List T → Bool
  | [] => true
  | p :: ps => (p.safe || T.takesAny k c ps) && T.safeSeq ps
end

def PBody.safe : PBody → Bool
  | .comb p => p.safe k c
  | .exec p => p.safe k c
  | .legacyDo => k .do_stmt && k .end_do_stmt && k .action_stmt && k .end_do

end

/-- All the statements are before `b`. -/
abbrev Below (l : List Nat) (b : Nat) : Prop := ∀ x ∈ l, x < b

theorem Below.append {l m : List Nat} {b : Nat} (h1 : Below l b) (h2 : Below m b) : Below (l ++ m) b := by
  intro x hx
  rcases List.mem_append.mp hx with h | h
  · exact h1 x h
  · exact h2 x h

section
variable {f : T → PState → PRes POut} {d k : R → Bool} {c : PR → Bool} {sp : StmtP} {g : PR → PBody}

/-- What is known of the inner parsers. -/
structure Safe (d k : R → Bool) (c : PR → Bool) (f : T → PState → PRes POut) : Prop where
  keeps : Keeps d f
  takes : Takes k c f
  safe : ∀ p s o, f p s = .ok o → p.only d = true → p.safe k c = true → Full s → Below (leavesOfOpt o.tree) s.hi
  stmt : ∀ r s o, f (.stmt r) s = .ok o → Full s → s.pos ≠ s.hi → Below (leavesOfOpt o.tree) s.hi

theorem alts_safe (H : Safe d k c f) : ∀ ps s o, altsLoop f ps s = .ok o → T.onlyAll d ps = true →
    T.safeAll k c ps = true → Full s → Below (leavesOfOpt o.tree) s.hi
  | [], s, o, h, _, _, _ => by
    simp only [altsLoop] at h
    injection h with h; subst h; intro x hx; cases hx
  | p :: ps, s, o, h, ho, hs, hf => by
    simp only [altsLoop] at h
    simp only [T.onlyAll, Bool.and_eq_true] at ho
    simp only [T.safeAll, Bool.and_eq_true] at hs
    pbind h with q hq
    by_cases hk : q.ok = true
    · rw [if_pos hk] at h; injection h with h; subst h
      exact H.safe _ _ _ hq ho.1 hs.1 hf
    · rw [if_neg hk] at h
      have ha := H.takes.adv _ _ _ hq
      have := alts_safe H ps _ _ h ho.2 hs.2 (ha.full hf)
      rwa [ha.hi] at this

theorem seq_safe (H : Safe d k c f) {s0 : PState} (hf : Full s0) : ∀ ps s acc r, seqLoop f ps s acc = .ok r →
    T.onlyAll d ps = true → T.safeSeq k c ps = true → Acc acc → Step s0 (leavesOf acc) s →
    (Below (leavesOf acc) s0.hi ∨ T.takesAny k c ps = true) → r.2.1 = true → Below (leavesOf r.1) s0.hi
  | [], s, acc, r, h, _, _, _, _, hb, _ => by
    simp only [seqLoop] at h
    injection h with h; subst h
    rcases hb with hb | hb
    · exact hb
    · cases hb
  | p :: ps, s, acc, r, h, ho, hs, ha, hst, hb, hr => by
    simp only [seqLoop] at h
    simp only [T.onlyAll, Bool.and_eq_true] at ho
    simp only [T.safeSeq, Bool.and_eq_true, Bool.or_eq_true] at hs
    pbind h with o hq
    have hi := H.keeps p s o ho.1 hq
    obtain ⟨a1, a2⟩ := attachTree_acc ha hi
    have hst' := hst.trans hi.step
    rw [← a2] at hst'
    have hfs : Full s := ⟨by rw [hst.hi, hst.stmts]; exact hf.1, by rw [hst.hi]; exact hst.bound hf.2⟩
    by_cases hk : o.ok = true
    · rw [if_pos hk] at h
      refine seq_safe H hf ps _ _ r h ho.2 hs.2 a1 hst' ?_ hr
      by_cases ht : T.takesAny k c ps = true
      · exact .inr ht
      · left
        rw [a2]
        refine Below.append ?_ ?_
        · rcases hb with hb | hb
          · exact hb
          · rw [T.takesAny, Bool.or_eq_true] at hb
            have hp := hb.resolve_right ht
            have h1 := H.takes.took _ _ _ hq hp hfs hk
            have h2 := hst'.bound hf.2
            intro x hx
            have := hst.within.high x hx
            omega
        · have := H.safe _ _ _ hq ho.1 (hs.1.resolve_right ht) hfs
          rwa [hst.hi] at this
    · rw [if_neg hk] at h; injection h with h; subst h; cases hr

/-- Optional sequences. -/
theorem optSeq_safe (H : Safe d k c f) {s0 : PState} (hf : Full s0) : ∀ ps s acc r, seqLoop f ps s acc = .ok r →
    T.onlyAll d ps = true → T.safeAll k c ps = true → Acc acc → PAdv s0 s → Below (leavesOf acc) s0.hi →
    Below (leavesOf r.1) s0.hi
  | [], s, acc, r, h, _, _, _, _, hb => by
    simp only [seqLoop] at h
    injection h with h; subst h
    exact hb
  | p :: ps, s, acc, r, h, ho, hs, ha, hst, hb => by
    simp only [seqLoop] at h
    simp only [T.onlyAll, Bool.and_eq_true] at ho
    simp only [T.safeAll, Bool.and_eq_true] at hs
    pbind h with o hq
    have hi := H.keeps p s o ho.1 hq
    obtain ⟨a1, a2⟩ := attachTree_acc ha hi
    have hb' : Below (leavesOf (attachTree acc o.tree)) s0.hi := by
      rw [a2]
      have := H.safe _ _ _ hq ho.1 hs.1 (hst.full hf)
      rw [hst.hi] at this
      exact hb.append this
    have hst' := hst.trans (H.takes.adv _ _ _ hq)
    by_cases hk : o.ok = true
    · rw [if_pos hk] at h
      exact optSeq_safe H hf ps _ _ r h ho.2 hs.2 a1 hst' hb'
    · rw [if_neg hk] at h; injection h with h; subst h; exact hb'

/-- What is repeated, called on a statement. -/
theorem rep_safe (H : Safe d k c f) {p : T} (hp : p.isStmt = true ∨ p.safe k c = true) {s : PState} {o : POut}
    (h : f p s = .ok o) (ho : p.only d = true) (hf : Full s) (hg : s.good = true) : Below (leavesOfOpt o.tree) s.hi := by
  rcases hp with hp | hp
  · cases p with
    | stmt r => exact H.stmt r s o h hf (by simpa [PState.good] using hg)
    | _ => cases hp
  · exact H.safe _ _ _ h ho hp hf

theorem star_safe (H : Safe d k c f) {p : T} (hp : p.isStmt = true ∨ p.safe k c = true) (ho : p.only d = true)
    {s0 : PState} (hf : Full s0) : ∀ n s acc r, starLoop f p n s acc = .ok r → Acc acc → PAdv s0 s →
    Below (leavesOf acc) s0.hi → Below (leavesOf r.1) s0.hi
  | 0, s, acc, r, h, _, _, _ => by simp only [starLoop] at h; cases h
  | n + 1, s, acc, r, h, ha, hst, hb => by
    simp only [starLoop] at h
    by_cases hg : s.good = true
    · rw [if_pos hg] at h
      pbind h with o hq
      have hi := H.keeps p s o ho hq
      obtain ⟨a1, a2⟩ := attachTree_acc ha hi
      have hb' : Below (leavesOf (attachTree acc o.tree)) s0.hi := by
        rw [a2]
        have := rep_safe H hp hq ho (hst.full hf) hg
        rw [hst.hi] at this
        exact hb.append this
      have hst' := hst.trans (H.takes.adv _ _ _ hq)
      by_cases hk : o.ok = true
      · rw [if_pos hk] at h
        exact star_safe H hp ho hf n _ _ r h a1 hst' hb'
      · rw [if_neg hk] at h; injection h with h; subst h; exact hb'
    · rw [if_neg hg] at h; injection h with h; subst h; exact hb

theorem block_safe (H : Safe d k c f) {s0 : PState} (hf : Full s0) : ∀ n s acc r, blockLoop f n s acc = .ok r →
    Acc acc → PAdv s0 s → Below (leavesOf acc) s0.hi → Below (leavesOf r.1) s0.hi
  | 0, s, acc, r, h, _, _, _ => by simp only [blockLoop] at h; cases h
  | n + 1, s, acc, r, h, ha, hst, hb => by
    simp only [blockLoop] at h
    pbind h with o hq
    have hi := H.keeps _ s o rfl hq
    obtain ⟨a1, a2⟩ := attachTree_acc ha hi
    have hb' : Below (leavesOf (attachTree acc o.tree)) s0.hi := by
      rw [a2]
      have := H.safe _ _ _ hq rfl rfl (hst.full hf)
      rw [hst.hi] at this
      exact hb.append this
    have hst' := hst.trans (H.takes.adv _ _ _ hq)
    cases ht : o.tree with
    | none => rw [ht] at h; injection h with h; subst h; exact hb
    | some t =>
      rw [ht] at h a1 hb'
      exact block_safe H hf n _ _ r h a1 hst' hb'

/-- A do that ends has its last statement in the list. -/
theorem doEnd_safe (hsp : Starved k sp) (hc : PBody.legacyDo.safe k c = true) {s : PState} (hf : Full s)
    {e : Option DoEnd × PState} (hr : ∀ st q, s.cur = .ok st → sp .end_do st.strm = .ok (none, q) → q = st.strm)
    (h : doEnd sp s = .ok e) (he : e.1 ≠ none) : s.pos < s.hi := by
  have hc' := hc
  simp only [PBody.safe, Bool.and_eq_true] at hc'
  have key : ∀ st, s.cur = .ok st → (∀ r t q, k r = true → sp r st.strm = .ok (some t, q) → s.pos < s.hi) := by
    intro st hst r t q hk hq
    rcases Nat.lt_or_ge s.pos s.hi with h | h
    · exact h
    · have := cur_end hst (by have := hf.2; have := hf.1; omega)
      subst this
      exact absurd hq (hsp r hk t q)
  unfold doEnd at h
  pbind h with st hst
  have hst := up_ok hst
  have key := key st hst
  by_cases h1 : st.label ≤ 0
  · rw [if_pos h1] at h
    unfold endPlain at h
    pbind h with o ho
    obtain ⟨o1, o2⟩ := o
    cases o1 with
    | none => injection h with h; subst h; exact absurd rfl he
    | some t => exact key _ _ _ hc'.1.1.2 ho
  · rw [if_neg h1] at h
    pbind h with lv hlv
    by_cases h2 : lv.1 ≤ -1
    · rw [if_pos h2] at h; cases h
    · rw [if_neg h2] at h
      by_cases h3 : lv.1 > 0
      · rw [if_pos h3] at h
        unfold endShared at h
        pbind h with o ho
        obtain ⟨o1, o2⟩ := o
        cases o1 with
        | none => injection h with h; subst h; exact absurd rfl he
        | some t => exact key _ _ _ hc'.1.2 ho
      · rw [if_neg h3] at h
        unfold endSingle at h
        pbind h with o ho
        obtain ⟨o1, o2⟩ := o
        cases o1 with
        | some t => exact key _ _ _ hc'.2 ho
        | none =>
          simp only at h
          pbind h with q hq
          obtain ⟨q1, q2⟩ := q
          have := hr st o2 hst ho
          subst this
          cases q1 with
          | none => injection h with h; subst h; exact absurd rfl he
          | some t => exact key _ _ _ hc'.1.2 hq

/-- `end_do` leaves the stream alone when it does not match. -/
def RestoresEndDo (sp : StmtP) : Prop := ∀ s q, sp .end_do s = .ok (none, q) → q = s

theorem do_safe (H : Safe d k c f) (hsp : Starved k sp) (hnh : NoHoist d sp) (hre : RestoresEndDo sp)
    (hd : PBody.legacyDo.only d = true) (hc : PBody.legacyDo.safe k c = true) {m : Nat} {s : PState} (hf : Full s)
    {o : POut} (h : runDo sp f m s = .ok o) : Below (leavesOfOpt o.tree) s.hi := by
  have hc' := hc
  simp only [PBody.safe, Bool.and_eq_true] at hc'
  have hd' := hd
  simp only [PBody.only, Bool.and_eq_true] at hd'
  unfold runDo at h
  pbind h with st hst
  pbind h with q hq
  obtain ⟨q1, q2⟩ := q
  cases q1 with
  | none => injection h with h; subst h; intro x hx; cases hx
  | some t =>
    simp only at h
    pbind h with label hlabel
    pbind h with r hr
    pbind h with e he
    have hs0 : Step s [] (if label > 0 then { s with stack := s.stack.push label } else s) := by
      by_cases hl : label > 0
      · rw [if_pos hl]; exact (Step.refl s).same rfl rfl rfl rfl (Nat.le_refl _)
      · rw [if_neg hl]; exact .refl s
    have hpos := (stack_pos s label).1
    have hs1 := hs0.trans (Step.taken _ t)
    have a1 : PAdv s (PState.advance (PState.attach
        (if label > 0 then { s with stack := s.stack.push label } else s) t)) :=
      ⟨hs1.stmts, hs1.hi, hs1.pos, hs1.bound⟩
    obtain ⟨b1, b2, _⟩ := block_inv H.keeps m _ _ _ r (Acc.new Tag.PG_BLOCK none) (by rw [stmtsOf_new]; exact .refl _) hr
    have hbl := block_safe H hf m _ _ r hr (Acc.new Tag.PG_BLOCK none) a1 (by rw [stmtsOf_new]; intro x hx; cases hx)
    have hs2 := hs1.trans b2
    rw [hpos, List.nil_append] at hs2
    have he' := doEnd_inv hnh hd he
    obtain ⟨e1, e2⟩ := e
    cases e1 with
    | none => injection h with h; subst h; intro x hx; cases hx
    | some w =>
      simp only at h
      pbind h with n hn
      injection h with h; subst h
      obtain ⟨d1, d2⟩ := he'.2 w rfl
      have hs3 := hs2.trans d2
      obtain ⟨_, g2⟩ := doTree_inv (hnh _ hd'.1.1.1 _ _ _ hq) d1 b1 hs3.within.sorted (up_ok hn)
      have hfr : Full r.2 := ⟨by rw [hs2.hi, hs2.stmts]; exact hf.1, by rw [hs2.hi]; exact hs2.bound hf.2⟩
      have hlast := doEnd_safe hsp hc hfr (fun st q _ h => hre _ _ h) he (by simp)
      rw [hs2.hi] at hlast
      have hp := hs2.pos
      show Below (leavesOf n) s.hi
      rw [g2]
      refine Below.append (Below.append ?_ hbl) ?_
      · intro x hx; simp at hx; omega
      · intro x hx; simp at hx; omega

theorem stmt_safe (hsp : Starved k sp) {r : R} {s : PState} {o : POut} (hf : Full s) (hk : k r = true ∨ s.pos ≠ s.hi)
    (h : runStmt sp r s = .ok o) : Below (leavesOfOpt o.tree) s.hi := by
  have ht := (stmt_takes hsp h).2.2 hk hf
  have hb := (stmt_takes hsp h).1.bound hf.2
  unfold runStmt at h
  pbind h with st hst
  pbind h with q hq
  obtain ⟨q1, q2⟩ := q
  cases q1 with
  | none => injection h with h; subst h; intro x hx; cases hx
  | some t =>
    injection h with h; subst h
    have := ht rfl
    intro x hx
    simp [leavesOfOpt, leavesOf] at hx
    subst hx
    exact Nat.lt_of_lt_of_le this hb

theorem step_safe (hg : ∀ r, c r = true → (g r).takes k c = true) (hgo : ∀ r, (g r).only d = true)
    (hgs : ∀ r, (g r).safe k c = true) (hsp : Starved k sp) (hnh : NoHoist d sp) (hre : RestoresEndDo sp)
    (H : Safe d k c f) {m : Nat} : Safe d k c (step sp g f m) := by
  have hcov : ∀ {a n : PNode}, coverBranches a = .ok n → Acc a → (leavesOf a).Pairwise (· ≤ ·) → leavesOf n = leavesOf a :=
    fun h ha ho => (cover_ok ha ho h).2.2.1
  refine ⟨fun p s o hp h => step_inv hnh hgo H.keeps hp h, ⟨fun p s o h => (step_takes' hg hsp H.takes h).1,
    fun p s o h => (step_takes' hg hsp H.takes h).2.1, fun p s o h => (step_takes' hg hsp H.takes h).2.2⟩, ?_,
    fun r s o h hf hne => stmt_safe hsp hf (.inr hne) h⟩
  intro p s o h ho hs hf
  have nil : ∀ {t : PState} {b : Nat}, Below (leavesOfOpt (noMatch t).tree) b := by intro t b x hx; cases hx
  cases p with
  | alts tag ps =>
    simp only [step] at h
    rw [T.only] at ho
    rw [T.safe] at hs
    pbind h with q hq
    have hi := alts_inv H.keeps ps s q ho hq
    have hb := alts_safe H ps s q hq ho hs hf
    by_cases hk : q.ok = true
    · rw [if_pos hk] at h
      cases ht : q.tree with
      | none => rw [ht] at h; cases h
      | some t =>
        rw [ht] at h
        simp only at h
        pbind h with n hn
        injection h with h; subst h
        obtain ⟨a1, a2⟩ := attachTree_acc (Acc.new tag none) hi
        rw [ht, stmtsOf_new, List.nil_append] at a2
        rw [ht] at a1 hb
        have hso := hi.step.within.sorted
        rw [ht, ← a2] at hso
        show Below (leavesOf n) s.hi
        rw [hcov (up_ok hn) a1 hso]
        have := hb
        rw [← a2] at this
        exact this
    · rw [if_neg hk] at h; injection h with h; subst h; exact nil
  | endStream =>
    simp only [step] at h
    by_cases hk : s.good = true
    · rw [if_pos hk] at h
      pbind h with s' hs'
      injection h with h; subst h; exact nil
    · rw [if_neg hk] at h; injection h with h; subst h; intro x hx; cases hx
  | opt p =>
    simp only [step] at h
    rw [T.only] at ho
    rw [T.safe] at hs
    pbind h with q hq
    have hi := H.keeps p s q ho hq
    have hb := H.safe _ _ _ hq ho hs hf
    have hst := hi.step
    cases ht : q.tree with
    | none => rw [ht] at h; injection h with h; subst h; intro x hx; cases hx
    | some t =>
      rw [ht] at h hb hst
      simp only at h
      pbind h with n hn
      injection h with h; subst h
      show Below (leavesOf n) s.hi
      rw [(recover_ok (hi.donor t ht) hst.within.sorted (up_ok hn)).2]
      exact hb
  | optSeq tag ps =>
    simp only [step] at h
    rw [T.only] at ho
    rw [T.safe] at hs
    pbind h with r hr
    pbind h with n hn
    injection h with h; subst h
    obtain ⟨a1, a2⟩ := seq_inv H.keeps ps s _ s r ho (Acc.new tag none) (by rw [stmtsOf_new]; exact .refl _) hr
    have hb := optSeq_safe H hf ps s _ r hr ho hs (Acc.new tag none) (.refl s) (by rw [stmtsOf_new]; intro x hx; cases hx)
    show Below (leavesOf n) s.hi
    rw [hcov (up_ok hn) a1 a2.within.sorted]
    exact hb
  | plus tag p =>
    simp only [step] at h
    rw [T.only] at ho
    rw [T.safe, Bool.or_eq_true] at hs
    by_cases hg' : s.good = true
    · rw [if_pos hg'] at h
      pbind h with q hq
      have hi := H.keeps p s q ho hq
      have hb := rep_safe H hs hq ho hf hg'
      by_cases hk : q.ok = true
      · rw [if_pos hk] at h
        pbind h with r hr
        pbind h with n hn
        injection h with h; subst h
        obtain ⟨a1, a2⟩ := attachTree_acc (Acc.new tag none) hi
        rw [stmtsOf_new, List.nil_append] at a2
        obtain ⟨b1, b2⟩ := star_inv H.keeps ho m _ _ s r a1 (by rw [a2]; exact hi.step) hr
        have hb2 := star_safe H hs ho hf m _ _ r hr a1 (H.takes.adv _ _ _ hq) (by rw [a2]; exact hb)
        show Below (leavesOf n) s.hi
        rw [hcov (up_ok hn) b1 b2.within.sorted]
        exact hb2
      · rw [if_neg hk] at h; injection h with h; subst h; exact nil
    · rw [if_neg hg'] at h; injection h with h; subst h; exact nil
  | seq tag ps =>
    simp only [step] at h
    rw [T.only] at ho
    rw [T.safe] at hs
    pbind h with r hr
    obtain ⟨a1, a2⟩ := seq_inv H.keeps ps s _ s r ho (Acc.new tag none) (by rw [stmtsOf_new]; exact .refl _) hr
    have hb := seq_safe H hf ps s _ r hr ho hs (Acc.new tag none) (by rw [stmtsOf_new]; exact .refl _)
      (.inl (by rw [stmtsOf_new]; intro x hx; cases hx))
    by_cases hk : r.2.1 = true
    · rw [if_pos hk] at h
      pbind h with n hn
      injection h with h; subst h
      show Below (leavesOf n) s.hi
      rw [hcov (up_ok hn) a1 a2.within.sorted]
      exact hb hk
    · rw [if_neg hk] at h
      pbind h with s' hs'
      injection h with h; subst h; exact nil
  | seqIf tag p ps =>
    simp only [step] at h
    rw [T.only, Bool.and_eq_true] at ho
    rw [T.safe, Bool.and_eq_true, Bool.or_eq_true] at hs
    pbind h with q hq
    have hi := H.keeps p s q ho.1 hq
    by_cases hk : q.ok = true
    · rw [if_pos hk] at h
      pbind h with r hr
      obtain ⟨a1, a2⟩ := attachTree_acc (Acc.new tag none) hi
      rw [stmtsOf_new, List.nil_append] at a2
      obtain ⟨b1, b2⟩ := seq_inv H.keeps ps _ _ s r ho.2 a1 (by rw [a2]; exact hi.step) hr
      have hb := seq_safe H hf ps _ _ r hr ho.2 hs.2 a1 (by rw [a2]; exact hi.step)
        (hs.1.imp (fun h => by rw [a2]; exact H.safe _ _ _ hq ho.1 h hf) id)
      by_cases hk : r.2.1 = true
      · rw [if_pos hk] at h
        pbind h with n hn
        injection h with h; subst h
        show Below (leavesOf n) s.hi
        rw [hcov (up_ok hn) b1 b2.within.sorted]
        exact hb hk
      · rw [if_neg hk] at h
        pbind h with s' hs'
        injection h with h; subst h; exact nil
    · rw [if_neg hk] at h; injection h with h; subst h; exact nil
  | star p =>
    simp only [step] at h
    rw [T.only] at ho
    rw [T.safe, Bool.or_eq_true] at hs
    pbind h with r hr
    pbind h with n hn
    injection h with h; subst h
    obtain ⟨b1, b2⟩ := star_inv H.keeps ho m _ _ s r (Acc.new Tag.HOIST none) (by rw [stmtsOf_new]; exact .refl _) hr
    have hb2 := star_safe H hs ho hf m _ _ r hr (Acc.new Tag.HOIST none) (.refl s)
      (by rw [stmtsOf_new]; intro x hx; cases hx)
    show Below (leavesOf n) s.hi
    rw [hcov (up_ok hn) b1 b2.within.sorted]
    exact hb2
  | stmt r => exact stmt_safe hsp hf (.inl hs) h
  | tagIf tag p =>
    simp only [step] at h
    rw [T.only] at ho
    rw [T.safe] at hs
    pbind h with q hq
    have hi := H.keeps p s q ho hq
    have hb := H.safe _ _ _ hq ho hs hf
    cases ht : q.tree with
    | none => rw [ht] at h; injection h with h; subst h; exact hb
    | some t =>
      rw [ht] at h
      simp only at h
      pbind h with n hn
      injection h with h; subst h
      obtain ⟨a1, a2⟩ := attachTree_acc (Acc.new tag none) hi
      rw [ht, stmtsOf_new, List.nil_append] at a2
      rw [ht] at a1 hb
      have hso := hi.step.within.sorted
      rw [ht, ← a2] at hso
      show Below (leavesOf n) s.hi
      rw [hcov (up_ok hn) a1 hso]
      have := hb
      rw [← a2] at this
      exact this
  | rule r =>
    simp only [step] at h
    have h1 := hgo r
    have h2 := hgs r
    cases hb : g r with
    | comb p =>
      rw [hb] at h h1 h2
      exact H.safe _ _ _ h h1 h2 hf
    | exec p =>
      rw [hb] at h h1 h2
      simp only [runBody] at h
      pbind h with st hst
      by_cases ht : s.stack.isTop st.label = true
      · rw [if_pos ht] at h; injection h with h; subst h; exact nil
      · rw [if_neg ht] at h; exact H.safe _ _ _ h h1 h2 hf
    | legacyDo =>
      rw [hb] at h h1 h2
      exact do_safe H hsp hnh hre h1 h2 hf h

theorem eval_safe (hg : ∀ r, c r = true → (g r).takes k c = true) (hgo : ∀ r, (g r).only d = true)
    (hgs : ∀ r, (g r).safe k c = true) (hsp : Starved k sp) (hnh : NoHoist d sp) (hre : RestoresEndDo sp) :
    ∀ n, Safe d k c (eval sp g n)
  | 0 => ⟨(fun _ _ _ _ h => by cases h), eval_takes hg hsp 0, (fun _ _ _ h => by cases h), (fun _ _ _ h => by cases h)⟩
  | n + 1 => step_safe hg hgo hgs hsp hnh hre (eval_safe hg hgo hgs hsp hnh hre n)

end

/-! ### The grammar -/

theorem pgrammar_safe (r : PR) : (PR.body r).safe needsToken PR.takes = true :=
  PR.forall_of (q := fun r => (PR.body r).safe needsToken PR.takes) (by decide +kernel) r

theorem restoresEndDo (x : SP.Exts) (n : Nat) : RestoresEndDo (SP.evalRule SP.R.body x n) :=
  fun _ _ h => SP.evalRule_treeRestores (SP.grammar_treeRestores .end_do (by decide)) h

theorem run_safe {x : SP.Exts} (hx : x.Forward) (hn : NeedToken x) {n : Nat} {r : PR} {s : PState} {o : POut} (hf : Full s)
    (h : run x n r s = .ok o) : Below (leavesOfOpt o.tree) s.hi :=
  (eval_safe pgrammar_takes pgrammar_only pgrammar_safe (starved hx hn n) (noHoist x n) (restoresEndDo x n) n).safe
    (.rule r) s o h rfl rfl hf

end PP
end FLPR
