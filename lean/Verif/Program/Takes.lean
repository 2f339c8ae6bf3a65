import Verif.Program.Inv
/-!
# Program level parsers only move forward, and what takes a statement
-/

namespace FLPR
namespace PP
open Spec
open SP (R SNode Rng Strm PRes PFail up up_ok)

/-- The state is further on, in the same statements. -/
structure PAdv (s s' : PState) : Prop where
  stmts : s'.stmts = s.stmts
  hi : s'.hi = s.hi
  pos : s.pos ≤ s'.pos
  bound : s.pos ≤ s.hi → s'.pos ≤ s.hi

theorem PAdv.refl (s : PState) : PAdv s s := ⟨rfl, rfl, Nat.le_refl _, id⟩

theorem PAdv.trans {s s' s'' : PState} (h1 : PAdv s s') (h2 : PAdv s' s'') : PAdv s s'' where
  stmts := h2.stmts.trans h1.stmts
  hi := h2.hi.trans h1.hi
  pos := Nat.le_trans h1.pos h2.pos
  bound := fun h => by
    have := h2.bound (by rw [h1.hi]; exact h1.bound h)
    rwa [h1.hi] at this

theorem PAdv.same {s s' s'' : PState} (h : PAdv s s') (h1 : s''.stmts = s'.stmts) (h2 : s''.hi = s'.hi)
    (h3 : s''.pos = s'.pos) : PAdv s s'' :=
  ⟨h1.trans h.stmts, h2.trans h.hi, by rw [h3]; exact h.pos, fun q => by rw [h3]; exact h.bound q⟩

theorem PAdv.full {s s' : PState} (h : PAdv s s') (hf : Full s) : Full s' :=
  ⟨by rw [h.hi, h.stmts]; exact hf.1, by rw [h.hi]; exact h.bound hf.2⟩

theorem PAdv.taken (s : PState) (t : SNode) : PAdv s (s.attach t).advance :=
  ⟨(Step.taken s t).stmts, (Step.taken s t).hi, (Step.taken s t).pos, (Step.taken s t).bound⟩

theorem PAdv.complained {s s' s'' : PState} (h : PAdv s s') (hc : s'.complain = .ok s'') : PAdv s s'' := by
  rw [complain_ok hc]; exact h.same rfl rfl rfl

theorem taken_pos {s : PState} (t : SNode) (h : s.pos ≠ s.hi) : (s.attach t).advance.pos = s.pos + 1 := by
  obtain ⟨_, _, _, _, _, _, h7⟩ := advance_eq (s.attach t)
  have e1 : (s.attach t).pos = s.pos := rfl
  have e2 : (s.attach t).hi = s.hi := rfl
  omega

/-- The statement parsers in `k` do not match the hidden statement. -/
def Starved (k : R → Bool) (sp : StmtP) : Prop :=
  ∀ r, k r = true → ∀ t q, sp r sentryStrm ≠ .ok (some t, q)

theorem cur_end {s : PState} {st : LStmt} (h : s.cur = .ok st) (hp : s.pos = s.stmts.length) : st = sentry := by
  unfold PState.cur at h
  rw [hp] at h
  simp at h
  exact h.symm

section takes
variable (k : R → Bool) (c : PR → Bool)

mutual
/-- A match takes a statement. -/
def T.takes : T → Bool
  | .alts _ ps => T.takesAll ps
  | .endStream => false
  | .opt _ => false
  | .optSeq _ _ => false
  | .plus _ p => p.takes
  | .seq _ ps => T.takesAny ps
  | .seqIf _ p ps => p.takes || T.takesAny ps
  | .star _ => false
  | .stmt r => k r
  | .tagIf _ p => p.takes
  | .rule r => c r
def T.takesAll : List T → Bool
  | [] => true
  | p :: ps => p.takes && T.takesAll ps
def T.takesAny : List T → Bool
  | [] => false
  | p :: ps => p.takes || T.takesAny ps
end

def PBody.takes : PBody → Bool
  | .comb p => p.takes k c
  | .exec p => p.takes k c
  | .legacyDo => k .do_stmt

end takes

section
variable {f : T → PState → PRes POut} {k : R → Bool} {c : PR → Bool} {sp : StmtP} {g : PR → PBody}

/-- What is known of the inner parsers. -/
structure Takes (k : R → Bool) (c : PR → Bool) (f : T → PState → PRes POut) : Prop where
  adv : ∀ p s o, f p s = .ok o → PAdv s o.s
  none : ∀ p s o, f p s = .ok o → o.ok = false → o.tree = none
  took : ∀ p s o, f p s = .ok o → p.takes k c = true → Full s → o.ok = true → s.pos < o.s.pos

theorem alts_takes (H : Takes k c f) : ∀ ps s o, altsLoop f ps s = .ok o → PAdv s o.s ∧ (o.ok = false → o.tree = none) ∧
    (T.takesAll k c ps = true → Full s → o.ok = true → s.pos < o.s.pos)
  | [], s, o, h => by
    simp only [altsLoop] at h
    injection h with h; subst h; exact ⟨.refl s, fun _ => rfl, fun _ _ h => by cases h⟩
  | p :: ps, s, o, h => by
    simp only [altsLoop] at h
    pbind h with q hq
    have ha := H.adv _ _ _ hq
    by_cases hk : q.ok = true
    · rw [if_pos hk] at h; injection h with h; subst h
      refine ⟨ha, H.none _ _ _ hq, fun h1 h2 _ => ?_⟩
      rw [T.takesAll, Bool.and_eq_true] at h1
      exact H.took _ _ _ hq h1.1 h2 hk
    · rw [if_neg hk] at h
      obtain ⟨b1, b2, b3⟩ := alts_takes H ps q.s o h
      refine ⟨ha.trans b1, b2, fun h1 h2 h3 => ?_⟩
      rw [T.takesAll, Bool.and_eq_true] at h1
      have := b3 h1.2 (ha.full h2) h3
      have := ha.pos
      omega

theorem seq_takes (H : Takes k c f) : ∀ ps s acc r, seqLoop f ps s acc = .ok r → PAdv s r.2.2 ∧
    (T.takesAny k c ps = true → Full s → r.2.1 = true → s.pos < r.2.2.pos)
  | [], s, acc, r, h => by
    simp only [seqLoop] at h
    injection h with h; subst h; exact ⟨.refl s, fun h => by cases h⟩
  | p :: ps, s, acc, r, h => by
    simp only [seqLoop] at h
    pbind h with o ho
    have ha := H.adv _ _ _ ho
    by_cases hk : o.ok = true
    · rw [if_pos hk] at h
      obtain ⟨b1, b2⟩ := seq_takes H ps _ _ _ h
      refine ⟨ha.trans b1, fun h1 h2 h3 => ?_⟩
      have e1 := ha.pos
      have e2 := b1.pos
      rw [T.takesAny, Bool.or_eq_true] at h1
      rcases h1 with h1 | h1
      · have := H.took _ _ _ ho h1 h2 hk; omega
      · have := b2 h1 (ha.full h2) h3; omega
    · rw [if_neg hk] at h; injection h with h; subst h
      exact ⟨ha, fun _ _ h => by cases h⟩

theorem star_takes (H : Takes k c f) {p : T} : ∀ n s acc r, starLoop f p n s acc = .ok r → PAdv s r.2
  | 0, s, acc, r, h => by simp only [starLoop] at h; cases h
  | n + 1, s, acc, r, h => by
    simp only [starLoop] at h
    by_cases hg : s.good = true
    · rw [if_pos hg] at h
      pbind h with o ho
      have ha := H.adv _ _ _ ho
      by_cases hk : o.ok = true
      · rw [if_pos hk] at h
        exact ha.trans (star_takes H n _ _ _ h)
      · rw [if_neg hk] at h; injection h with h; subst h; exact ha
    · rw [if_neg hg] at h; injection h with h; subst h; exact .refl s

theorem block_takes (H : Takes k c f) : ∀ n s acc r, blockLoop f n s acc = .ok r → PAdv s r.2
  | 0, s, acc, r, h => by simp only [blockLoop] at h; cases h
  | n + 1, s, acc, r, h => by
    simp only [blockLoop] at h
    pbind h with o ho
    have ha := H.adv _ _ _ ho
    cases ht : o.tree with
    | none => rw [ht] at h; injection h with h; subst h; exact ha
    | some t => rw [ht] at h; exact ha.trans (block_takes H n _ _ _ h)

theorem endPlain_adv {st : LStmt} {s : PState} {e : Option DoEnd × PState} (h : endPlain sp st s = .ok e) :
    PAdv s e.2 ∧ ∀ d, e.1 = some d → PAdv s d.s := by
  unfold endPlain at h
  pbind h with o ho
  obtain ⟨o1, o2⟩ := o
  cases o1 with
  | none => injection h with h; subst h; exact ⟨.refl s, fun d hd => by cases hd⟩
  | some t =>
    injection h with h; subst h
    exact ⟨.refl s, fun d hd => by cases hd; exact .taken s t⟩

theorem endShared_adv {st : LStmt} {s : PState} {lv : Int} {e : Option DoEnd × PState}
    (h : endShared sp lv st s = .ok e) : PAdv s e.2 ∧ ∀ d, e.1 = some d → PAdv s d.s := by
  unfold endShared at h
  pbind h with o ho
  obtain ⟨o1, o2⟩ := o
  cases o1 with
  | none => injection h with h; subst h; exact ⟨.refl s, fun d hd => by cases hd⟩
  | some t =>
    simp only at h
    pbind h with k hk
    injection h with h; subst h
    refine ⟨.refl s, fun d hd => ?_⟩
    cases hd
    by_cases hl : lv = 1
    · simp only [hl, if_true]; exact (PAdv.taken s t).same rfl rfl rfl
    · simp only [hl, if_false]; exact (PAdv.refl s).same rfl rfl rfl

theorem endSingle_adv {st : LStmt} {s : PState} {e : Option DoEnd × PState} (h : endSingle sp st s = .ok e) :
    PAdv s e.2 ∧ ∀ d, e.1 = some d → PAdv s d.s := by
  unfold endSingle at h
  pbind h with o ho
  obtain ⟨o1, o2⟩ := o
  cases o1 with
  | some t =>
    simp only at h
    pbind h with k hk
    injection h with h; subst h
    exact ⟨.refl s, fun d hd => by cases hd; exact (PAdv.taken s t).same rfl rfl rfl⟩
  | none =>
    simp only at h
    pbind h with q hq
    obtain ⟨q1, q2⟩ := q
    cases q1 with
    | none => injection h with h; subst h; exact ⟨.refl s, fun d hd => by cases hd⟩
    | some t =>
      simp only at h
      pbind h with k hk
      injection h with h; subst h
      exact ⟨.refl s, fun d hd => by cases hd; exact (PAdv.taken s t).same rfl rfl rfl⟩

theorem doEnd_adv {s : PState} {e : Option DoEnd × PState} (h : doEnd sp s = .ok e) :
    PAdv s e.2 ∧ ∀ d, e.1 = some d → PAdv s d.s := by
  unfold doEnd at h
  pbind h with st hst
  by_cases h1 : st.label ≤ 0
  · rw [if_pos h1] at h; exact endPlain_adv h
  · rw [if_neg h1] at h
    pbind h with lv hlv
    have hs : PAdv s { s with stack := lv.2 } := (PAdv.refl s).same rfl rfl rfl
    by_cases h2 : lv.1 ≤ -1
    · rw [if_pos h2] at h; cases h
    · rw [if_neg h2] at h
      by_cases h3 : lv.1 > 0
      · rw [if_pos h3] at h
        obtain ⟨a, b⟩ := endShared_adv h
        exact ⟨hs.trans a, fun d hd => hs.trans (b d hd)⟩
      · rw [if_neg h3] at h
        obtain ⟨a, b⟩ := endSingle_adv h
        exact ⟨hs.trans a, fun d hd => hs.trans (b d hd)⟩

/-- What a do leaves behind. -/
theorem stack_pos (s : PState) (label : Int) :
    (if label > 0 then { s with stack := s.stack.push label } else s : PState).pos = s.pos ∧
    (if label > 0 then { s with stack := s.stack.push label } else s : PState).hi = s.hi ∧
    (if label > 0 then { s with stack := s.stack.push label } else s : PState).stmts = s.stmts := by
  by_cases hl : label > 0 <;> simp [hl]

theorem do_takes (H : Takes k c f) (hsp : Starved k sp) {m : Nat} {s : PState} {o : POut} (h : runDo sp f m s = .ok o) :
    PAdv s o.s ∧ (o.ok = false → o.tree = none) ∧ (k .do_stmt = true → Full s → o.ok = true → s.pos < o.s.pos) := by
  unfold runDo at h
  pbind h with st hst
  pbind h with q hq
  obtain ⟨q1, q2⟩ := q
  cases q1 with
  | none => injection h with h; subst h; exact ⟨.refl s, fun _ => rfl, fun _ _ h => by cases h⟩
  | some t =>
    simp only at h
    pbind h with label hlabel
    pbind h with r hr
    pbind h with e he
    obtain ⟨e1, e2, e3⟩ := stack_pos s label
    have a1 := ((PAdv.refl s).same e3 e2 e1).trans (PAdv.taken _ t)
    have a2 := block_takes H _ _ _ _ hr
    obtain ⟨a3, a4⟩ := doEnd_adv he
    have ht : k .do_stmt = true → Full s → s.pos < r.2.pos := by
      intro hk hf
      have hne : s.pos ≠ s.hi := by
        intro hp
        have := cur_end (up_ok hst) (by rw [hp, hf.1])
        subst this
        exact hsp _ hk _ _ hq
      have := taken_pos (s := if label > 0 then { s with stack := s.stack.push label } else s) t
        (by rw [e1, e2]; exact hne)
      have := a2.pos
      omega
    obtain ⟨w1, w2⟩ := e
    cases w1 with
    | none =>
      injection h with h; subst h
      exact ⟨((a1.trans a2).trans a3).same rfl rfl rfl, fun _ => rfl, fun _ _ h => by cases h⟩
    | some d =>
      simp only at h
      pbind h with n hn
      injection h with h; subst h
      refine ⟨(a1.trans a2).trans (a4 d rfl), (fun h => by cases h), fun hk hf _ => ?_⟩
      have := (a4 d rfl).pos
      have := ht hk hf
      show s.pos < d.s.pos
      omega

theorem stmt_takes (hsp : Starved k sp) {r : R} {s : PState} {o : POut} (h : runStmt sp r s = .ok o) :
    PAdv s o.s ∧ (o.ok = false → o.tree = none) ∧
      ((k r = true ∨ s.pos ≠ s.hi) → Full s → o.ok = true → s.pos < o.s.pos) := by
  unfold runStmt at h
  pbind h with st hst
  pbind h with q hq
  obtain ⟨q1, q2⟩ := q
  cases q1 with
  | none => injection h with h; subst h; exact ⟨.refl s, fun _ => rfl, fun _ _ h => by cases h⟩
  | some t =>
    injection h with h; subst h
    refine ⟨.taken s t, (fun h => by cases h), fun hk hf _ => ?_⟩
    have hne : s.pos ≠ s.hi := by
      rcases hk with hk | hk
      · intro hp
        have := cur_end (up_ok hst) (by rw [hp, hf.1])
        subst this
        exact hsp _ hk _ _ hq
      · exact hk
    have := taken_pos (s := s) t hne
    show s.pos < (s.attach t).advance.pos
    omega

theorem body_takes (H : Takes k c f) (hsp : Starved k sp) {m : Nat} {b : PBody} {s : PState} {o : POut}
    (h : runBody sp f m b s = .ok o) : PAdv s o.s ∧ (o.ok = false → o.tree = none) ∧
      (b.takes k c = true → Full s → o.ok = true → s.pos < o.s.pos) := by
  cases b with
  | comb p => exact ⟨H.adv _ _ _ h, H.none _ _ _ h, H.took _ _ _ h⟩
  | exec p =>
    simp only [runBody] at h
    pbind h with st hst
    by_cases ht : s.stack.isTop st.label = true
    · rw [if_pos ht] at h; injection h with h; subst h
      exact ⟨.refl s, fun _ => rfl, fun _ _ h => by cases h⟩
    · rw [if_neg ht] at h; exact ⟨H.adv _ _ _ h, H.none _ _ _ h, H.took _ _ _ h⟩
  | legacyDo => exact do_takes H hsp h

theorem seqEnd_takes {s : PState} {r : PNode × Bool × PState} {o : POut} (ha : PAdv s r.2.2)
    (h : (if r.2.1 then do
        let n ← up (coverBranches r.1)
        .ok ⟨some n, true, r.2.2⟩
      else do
        let s' ← up r.2.2.complain
        .ok (noMatch s'.giveUp) : PRes POut) = .ok o) :
    PAdv s o.s ∧ (o.ok = false → o.tree = none) ∧ (o.ok = true → r.2.1 = true ∧ o.s = r.2.2) := by
  by_cases hk : r.2.1 = true
  · rw [if_pos hk] at h
    pbind h with n hn
    injection h with h; subst h
    exact ⟨ha, (fun h => by cases h), fun _ => ⟨hk, rfl⟩⟩
  · rw [if_neg hk] at h
    pbind h with s' hs'
    injection h with h; subst h
    exact ⟨(ha.complained (up_ok hs')).same rfl rfl rfl, fun _ => rfl, fun h => by cases h⟩

theorem step_takes' (hg : ∀ r, c r = true → (g r).takes k c = true) (hsp : Starved k sp) (H : Takes k c f) {m : Nat} {p : T}
    {s : PState} {o : POut} (h : step sp g f m p s = .ok o) : PAdv s o.s ∧ (o.ok = false → o.tree = none) ∧
      (p.takes k c = true → Full s → o.ok = true → s.pos < o.s.pos) := by
  cases p with
  | alts tag ps =>
    simp only [step] at h
    pbind h with q hq
    obtain ⟨a1, a2, a3⟩ := alts_takes H ps s q hq
    rw [T.takes]
    by_cases hk : q.ok = true
    · rw [if_pos hk] at h
      cases ht : q.tree with
      | none => rw [ht] at h; cases h
      | some t =>
        rw [ht] at h
        simp only at h
        pbind h with n hn
        injection h with h; subst h
        exact ⟨a1, (fun h => by cases h), fun h1 h2 _ => a3 h1 h2 hk⟩
    · rw [if_neg hk] at h; injection h with h; subst h
      exact ⟨a1, fun _ => rfl, fun _ _ h => by cases h⟩
  | endStream =>
    simp only [step] at h
    by_cases hk : s.good = true
    · rw [if_pos hk] at h
      pbind h with s' hs'
      injection h with h; subst h
      exact ⟨(PAdv.refl s).complained (up_ok hs'), fun _ => rfl, fun _ _ h => by cases h⟩
    · rw [if_neg hk] at h; injection h with h; subst h
      exact ⟨.refl s, fun _ => rfl, fun h => by cases h⟩
  | opt p =>
    simp only [step] at h
    pbind h with q hq
    have ha := H.adv _ _ _ hq
    cases ht : q.tree with
    | none => rw [ht] at h; injection h with h; subst h; exact ⟨ha, fun _ => rfl, fun h => by cases h⟩
    | some t =>
      rw [ht] at h
      simp only at h
      pbind h with n hn
      injection h with h; subst h
      exact ⟨ha, (fun h => by cases h), fun h => by cases h⟩
  | optSeq tag ps =>
    simp only [step] at h
    pbind h with r hr
    pbind h with n hn
    injection h with h; subst h
    exact ⟨(seq_takes H _ _ _ _ hr).1, (fun h => by cases h), fun h => by cases h⟩
  | plus tag p =>
    simp only [step] at h
    rw [T.takes]
    by_cases hg' : s.good = true
    · rw [if_pos hg'] at h
      pbind h with q hq
      have ha := H.adv _ _ _ hq
      by_cases hk : q.ok = true
      · rw [if_pos hk] at h
        pbind h with r hr
        pbind h with n hn
        injection h with h; subst h
        have hb := star_takes H _ _ _ _ hr
        refine ⟨ha.trans hb, (fun h => by cases h), fun h1 h2 _ => ?_⟩
        have := H.took _ _ _ hq h1 h2 hk
        have := hb.pos
        show s.pos < r.2.pos
        omega
      · rw [if_neg hk] at h; injection h with h; subst h
        exact ⟨ha, fun _ => rfl, fun _ _ h => by cases h⟩
    · rw [if_neg hg'] at h; injection h with h; subst h
      exact ⟨.refl s, fun _ => rfl, fun _ _ h => by cases h⟩
  | seq tag ps =>
    simp only [step] at h
    pbind h with r hr
    rw [T.takes]
    obtain ⟨a1, a2⟩ := seq_takes H _ _ _ _ hr
    obtain ⟨b1, b2, b3⟩ := seqEnd_takes a1 h
    refine ⟨b1, b2, fun h1 h2 h3 => ?_⟩
    obtain ⟨b4, b5⟩ := b3 h3
    rw [b5]; exact a2 h1 h2 b4
  | seqIf tag p ps =>
    simp only [step] at h
    rw [T.takes]
    pbind h with q hq
    have ha := H.adv _ _ _ hq
    by_cases hk : q.ok = true
    · rw [if_pos hk] at h
      pbind h with r hr
      obtain ⟨a1, a2⟩ := seq_takes H _ _ _ _ hr
      obtain ⟨b1, b2, b3⟩ := seqEnd_takes (ha.trans a1) h
      refine ⟨b1, b2, fun h1 h2 h3 => ?_⟩
      obtain ⟨b4, b5⟩ := b3 h3
      rw [b5]
      rw [Bool.or_eq_true] at h1
      have e1 := ha.pos
      have e2 := a1.pos
      rcases h1 with h1 | h1
      · have := H.took _ _ _ hq h1 h2 hk; omega
      · have := a2 h1 (ha.full h2) b4; omega
    · rw [if_neg hk] at h; injection h with h; subst h
      exact ⟨ha, fun _ => rfl, fun _ _ h => by cases h⟩
  | star p =>
    simp only [step] at h
    pbind h with r hr
    pbind h with n hn
    injection h with h; subst h
    exact ⟨star_takes H _ _ _ _ hr, (fun h => by cases h), fun h => by cases h⟩
  | stmt r =>
    obtain ⟨a, b, d⟩ := stmt_takes hsp h
    exact ⟨a, b, fun h1 => d (.inl h1)⟩
  | tagIf tag p =>
    simp only [step] at h
    rw [T.takes]
    pbind h with q hq
    have ha := H.adv _ _ _ hq
    cases ht : q.tree with
    | none => rw [ht] at h; injection h with h; subst h; exact ⟨ha, fun _ => ht, H.took _ _ _ hq⟩
    | some t =>
      rw [ht] at h
      simp only at h
      pbind h with n hn
      injection h with h; subst h
      refine ⟨ha, fun h => ?_, fun h1 h2 h3 => H.took p s q hq h1 h2 h3⟩
      rw [H.none _ _ _ hq h] at ht; cases ht
  | rule r =>
    obtain ⟨a, b, d⟩ := body_takes H hsp h
    exact ⟨a, b, fun h1 => d (hg r h1)⟩

end

theorem eval_takes {k : R → Bool} {c : PR → Bool} {sp : StmtP} {g : PR → PBody}
    (hg : ∀ r, c r = true → (g r).takes k c = true) (hsp : Starved k sp) : ∀ n, Takes k c (eval sp g n)
  | 0 => ⟨(fun _ _ _ h => by cases h), (fun _ _ _ h => by cases h), (fun _ _ _ h => by cases h)⟩
  | n + 1 => by
    have H := eval_takes hg hsp n
    exact ⟨fun p s o h => (step_takes' hg hsp H h).1, fun p s o h => (step_takes' hg hsp H h).2.1,
      fun p s o h => (step_takes' hg hsp H h).2.2⟩

end PP
end FLPR
