import Verif.StmtParser.BuildSpec
import Verif.StmtParser.Static
import Verif.StmtParser.FormSim
/-! # Lemmas for C72: each match builds what its term stands for -/

namespace FLPR
namespace SP
open Spec

/-- A match may come without a tree. -/
def P.bare : P → Bool
  | .neg _ => true
  | .opt _ => true
  | .peek _ => true
  | .tagIf _ p => p.bare
  | _ => false

mutual
/-- Terms whose trees can be read off. -/
def P.tidy : P → Bool
  | .alts _ ps => P.tidyAll ps
  | .neg p => p.restores
  | .opt p => p.tidy && p.restores
  | .seq _ ps => P.tidyAll ps
  | .star p => p.tidy && p.restores
  | .tagIf _ p => p.tidy && !p.bare
  | .tok t => t != Tag.BAD && t != Tag.HOIST
  | .letter => true
  | .literal _ => true
  | .name => true
  | .peek _ => true
  | .rule _ => true
def P.tidyAll : List P → Bool
  | [] => true
  | p :: ps => p.tidy && P.tidyAll ps
end

def Body.tidy : Body → Bool
  | .comb p => p.tidy && p.restores
  | .expr tag real => tag != Tag.HOIST && real.tidy && real.restores && real.isReal
  | .parens => true
  | .listName => true
  | .procDesignator p => p.tidy && p.restores
  | .withExts _ p => p.tidy

theorem grammar_tidy (r : R) : (R.body r).tidy = true := R.forall_of (q := fun r => (R.body r).tidy) (by decide +kernel) r

theorem tidyAll_mem : ∀ {ps : List P} {p : P}, P.tidyAll ps = true → p ∈ ps → p.tidy = true
  | [], _, _, h => by cases h
  | q :: ps, p, h, hm => by
    rw [P.tidyAll, Bool.and_eq_true] at h
    rcases List.mem_cons.mp hm with rfl | hm
    · exact h.1
    · exact tidyAll_mem h.2 hm

theorem hoistBack_spread (t : SNode) (d : Option SNode) : (hoistBack t d).kids = t.kids ++ spread d ∧ (hoistBack t d).tag = t.tag := by
  obtain ⟨tt, r, ks⟩ := t
  cases d with
  | none => exact ⟨by simp [hoistBack, spread], rfl⟩
  | some k =>
    obtain ⟨dt, dr, dks⟩ := k
    by_cases h : dt = Tag.HOIST
    · rw [hoistBack, if_pos h, spread, if_pos (show (SNode.node dt dr dks).tag = Tag.HOIST from h)]
      exact ⟨rfl, rfl⟩
    · rw [hoistBack, if_neg h, spread, if_neg (show ¬ (SNode.node dt dr dks).tag = Tag.HOIST from h)]
      exact ⟨rfl, rfl⟩

theorem cover_spread {n n' : SNode} (h : coverBranches n = .ok n') : n'.kids = n.kids ∧ n'.tag = n.tag := by
  obtain ⟨t, r, ks⟩ := n
  rw [coverBranches] at h
  split at h
  · injection h with h; subst h; exact ⟨rfl, rfl⟩
  · rbind h with r' hr'
    injection h with h; subst h; exact ⟨rfl, rfl⟩

theorem spread_under (n : SNode) : spread (some n) = putUnder n.tag n.range n.kids := by
  obtain ⟨t, r, ks⟩ := n
  rfl

theorem deref_cases {l : List Tok} {i : Nat} {a : Tok} (h : derefTok l i = .ok a) : l[i]? = some a ∨ a = badTok := by
  rw [derefTok] at h
  split at h
  · next hl =>
    injection h with h
    rw [← h]
    exact .inl (by simp [hl])
  · split at h
    · injection h with h; exact .inr h.symm
    · cases h

theorem peek_tok {s : Strm} {t : Int} (h : s.peek = .ok t) (ht : t ≠ Tag.BAD) :
    s.pos ≠ s.hi ∧ ∃ a, s.all[s.pos]? = some a ∧ a.token = t := by
  rw [Strm.peek] at h
  split at h
  · injection h with h; exact absurd h.symm ht
  · next hn =>
    rbind h with a ha
    injection h with h
    refine ⟨hn, a, ?_, h⟩
    rcases deref_cases ha with h1 | h1
    · exact h1
    · rw [h1] at h; exact absurd h.symm ht

theorem peek_name {s : Strm} {t : Int} (h : s.peek = .ok t) (hb : Registry.isName t = .ok true) :
    s.pos ≠ s.hi ∧ ∃ a, s.all[s.pos]? = some a ∧ a.token = t ∧ NameTag t := by
  have hne : t ≠ Tag.BAD := by
    rintro rfl
    rw [isName_bad] at hb
    cases hb
  obtain ⟨h1, a, h2, h3⟩ := peek_tok h hne
  exact ⟨h1, a, h2, h3, of_decide_eq_true (nameTag_iff hb).symm⟩

theorem peekTT_tok {s : Strm} {a b : Tok} (h : s.peekTT 1 = .ok b) (hn : s.pos ≠ s.hi) (ha : s.all[s.pos]? = some a) : b = a := by
  rw [Strm.peekTT] at h
  simp only [Nat.sub_self, Nat.add_zero] at h
  split at h
  · simp only [derefTok] at h
    obtain ⟨hl, rfl⟩ := List.getElem?_eq_some_iff.mp ha
    rw [if_pos hl] at h
    injection h with h
    rw [← h]; simp [hl]
  · cases h

/-- What is known of the inner parsers. -/
structure Building (x : Exts) (g : R → Body) (f : P → Strm → PRes Out) : Prop where
  frame : ∀ p s o, f p s = .ok o → Frame s o.s
  builds : ∀ p s o, p.tidy = true → f p s = .ok o → o.ok = true → Builds s.all x g p (spread o.tree)
  tree : ∀ p s o, p.bare = false → f p s = .ok o → o.ok = true → ∃ t, o.tree = some t
  restores : ∀ p s o, p.restores = true → f p s = .ok o → Restored s o

section main
variable {x : Exts} {g : R → Body} {f : P → Strm → PRes Out} (K : Building x g f)
include K

theorem altsLoop_builds : ∀ ps s o, P.tidyAll ps = true → altsLoop f ps s = .ok o → o.ok = true →
    ∃ p ∈ ps, Builds s.all x g p (spread o.tree) := by
  intro ps
  induction ps with
  | nil => intro s o _ h ho; injection h with h; subst h; cases ho
  | cons p ps ih =>
    intro s o ht h ho
    rw [P.tidyAll, Bool.and_eq_true] at ht
    rw [altsLoop] at h
    pbind h with o1 h1
    split at h
    · injection h with h; subst h
      exact ⟨p, List.mem_cons_self .., K.builds p s o1 ht.1 h1 ho⟩
    · obtain ⟨q, q1, q2⟩ := ih o1.s o ht.2 h ho
      rw [(K.frame p s o1 h1).1] at q2
      exact ⟨q, List.mem_cons_of_mem _ q1, q2⟩

theorem seqLoop_builds : ∀ ps s acc w, P.tidyAll ps = true → seqLoop f ps s acc = .ok w → w.2.1 = true →
    ∃ fs, w.1.kids = acc.kids ++ fs ∧ BuildsSeq s.all x g ps fs := by
  intro ps
  induction ps with
  | nil => intro s acc w _ h _; injection h with h; subst h; exact ⟨[], by simp, .nil⟩
  | cons p ps ih =>
    intro s acc w ht h hw
    rw [P.tidyAll, Bool.and_eq_true] at ht
    rw [seqLoop] at h
    pbind h with o ho
    split at h
    · next hok =>
      obtain ⟨fs, f1, f2⟩ := ih o.s _ w ht.2 h hw
      rw [(K.frame p s o ho).1] at f2
      refine ⟨spread o.tree ++ fs, ?_, .cons (K.builds p s o ht.1 ho hok) f2⟩
      rw [f1, (hoistBack_spread _ _).1, List.append_assoc]
    · injection h with h; subst h; cases hw

theorem starLoop_builds {p : P} (hp : p.tidy = true) (hr : p.restores = true) : ∀ n s acc w, starLoop f p n s acc = .ok w →
    w.1.tag = acc.tag ∧ ∃ fs, w.1.kids = acc.kids ++ fs ∧ BuildsRep s.all x g p fs := by
  intro n
  induction n with
  | zero => intro s acc w h; cases h
  | succ n ih =>
    intro s acc w h
    rw [starLoop] at h
    pbind h with o ho
    split at h
    · next hok =>
      obtain ⟨f0, fs, f1, f2⟩ := ih o.s _ w h
      rw [(K.frame p s o ho).1] at f2
      refine ⟨f0.trans (hoistBack_spread _ _).2, spread o.tree ++ fs, ?_, .cons (K.builds p s o hp ho hok) f2⟩
      rw [f1, (hoistBack_spread _ _).1, List.append_assoc]
    · next hok =>
      injection h with h; subst h
      rw [(K.restores p s o hr ho (by simpa using hok)).2]
      exact ⟨rfl, [], by simp [hoistBack], .nil⟩

theorem untilBreak_builds {real : P} (ht : real.tidy = true) (hr : real.restores = true)
    (hh : ∀ s o t, f real s = .ok o → o.tree = some t → t.tag ≠ Tag.HOIST) : ∀ n s d ks w,
    untilBreak f real n s d ks = .ok w → ∀ ks', w.1 = some ks' → ∃ fs, ks' = ks ++ fs ∧ BuildsExpr s.all x g real fs := by
  intro n
  induction n with
  | zero => intro s d ks w h; cases h
  | succ n ih =>
    intro s d ks w h ks' hw
    rw [untilBreak] at h
    pbind h with t ht'
    have hpk := up_ok ht'
    split at h
    · injection h with h; subst h
      injection hw with hw; subst hw
      exact ⟨[], by simp, .nil⟩
    · injection h with h; subst h; cases hw
    · next d' _ =>
      split at h
      · pbind h with o ho
        pbind h with ks1 hks1
        have hks1 := up_ok hks1
        cases hk : o.tree with
        | none => rw [hk] at hks1; cases hks1
        | some k =>
          rw [hk] at hks1
          injection hks1 with hks1; subst hks1
          obtain ⟨fs, f1, f2⟩ := ih o.s d' _ w h ks' hw
          rw [(K.frame real s o ho).1] at f2
          refine ⟨k :: fs, by rw [f1]; simp, .real ?_ f2⟩
          have hok : o.ok = true := by
            by_contra hn
            have := (K.restores real s o hr ho (by simpa using hn)).2
            rw [hk] at this; cases this
          have := K.builds real s o ht ho hok
          rw [hk, spread, if_neg (hh s o k ho hk)] at this
          exact this
      · pbind h with r hr'
        obtain ⟨e1, e2, _⟩ := digest_ok (s' := r.2) (r := r.1) (up_ok hr')
        obtain ⟨fs, f1, f2⟩ := ih r.2 d' _ w h ks' hw
        rw [e1] at f2
        rw [e2] at f1
        refine ⟨leafAt t s.pos :: fs, by rw [f1]; simp [leafAt], ?_⟩
        by_cases hbad : t = Tag.BAD
        · rw [hbad]; exact .over f2
        · obtain ⟨_, a, a1, a2⟩ := peek_tok hpk hbad
          rw [← a2]
          exact .tok a1 f2
omit K in
theorem parensLoop_builds : ∀ n s d ks w, parensLoop n s d ks = .ok w → 0 < d →
    ∃ fs j b, w.1 = ks ++ fs ++ [leafAt Tag.TK_PARENR j] ∧ s.all[j]? = some b ∧ b.token = Tag.TK_PARENR ∧
      ∀ k ∈ fs, ∃ l c, k = leafAt c.token l ∧ s.all[l]? = some c := by
  intro n
  induction n with
  | zero => intro s d ks w h; cases h
  | succ n ih =>
    intro s d ks w h hd
    rw [parensLoop, if_pos hd] at h
    pbind h with t ht
    have hpk := up_ok ht
    have again : ∀ {d'}, t ≠ Tag.BAD → (0 < d' ∨ (t = Tag.TK_PARENR ∧ d' = 0)) → (do
        let r ← up (s.digest 1)
        parensLoop n r.2 d' (ks ++ [.node t (some r.1) []]) : PRes (List SNode × Strm)) = .ok w →
        ∃ fs j b, w.1 = ks ++ fs ++ [leafAt Tag.TK_PARENR j] ∧ s.all[j]? = some b ∧ b.token = Tag.TK_PARENR ∧
          ∀ k ∈ fs, ∃ l c, k = leafAt c.token l ∧ s.all[l]? = some c := by
      intro d' hbad hor h
      pbind h with r hr
      obtain ⟨e1, e2, _⟩ := digest_ok (s' := r.2) (r := r.1) (up_ok hr)
      obtain ⟨_, a, a1, a2⟩ := peek_tok hpk hbad
      rcases hor with hpos | ⟨hpr, h0⟩
      · obtain ⟨fs, j, b, f1, f2, f3, f4⟩ := ih _ _ _ _ h hpos
        rw [e1] at f2 f4
        rw [e2] at f1
        refine ⟨leafAt t s.pos :: fs, j, b, by rw [f1]; simp [leafAt], f2, f3, ?_⟩
        intro k hk
        rcases List.mem_cons.mp hk with rfl | hk
        · exact ⟨s.pos, a, by rw [a2], a1⟩
        · exact f4 k hk
      · cases n with
        | zero => cases h
        | succ n =>
          rw [parensLoop, if_neg (by omega)] at h
          injection h with h; subst h
          exact ⟨[], s.pos, a, by simp [leafAt, e2, hpr], a1, a2.trans hpr, by simp⟩
    split at h
    · next h1 => exact again (by rw [h1]; decide) (.inl (by omega)) h
    · split at h
      · next h1 => exact again (by rw [h1]; decide) (by by_cases hq : d - 1 = 0; exact .inr ⟨h1, hq⟩; exact .inl (by omega)) h
      · split at h
        · cases h
        · next h1 => exact again h1 (.inl hd) h

omit K in
theorem extLoop_builds {tag : Int} {m : Nat} : ∀ (es : List Ext) s w n, extLoop tag m es s = .ok w → w.1 = some n →
    ∃ e ∈ es, ∃ s' q t rg, e s' = .ok (some t, q) ∧ n = .node tag rg (spread (some t)) := by
  intro es
  induction es with
  | nil => intro s w n h hn; injection h with h; subst h; cases hn
  | cons e es ih =>
    intro s w n h hn
    rw [extLoop] at h
    rbind h with r hr
    split at h
    · next st hst =>
      rbind h with c hc
      injection h with h; subst h
      injection hn with hn; subst hn
      obtain ⟨h1, h2⟩ := cover_spread hc
      refine ⟨e, List.mem_cons_self .., s, r.2, st, c.range, by rw [hr, ← hst], ?_⟩
      obtain ⟨ct, cr, cks⟩ := c
      rw [(hoistBack_spread _ _).1] at h1
      rw [(hoistBack_spread _ _).2] at h2
      simp only [SNode.kids, List.nil_append, SNode.tag] at h1 h2
      rw [h1, h2]; rfl
    · obtain ⟨e', e1, e2⟩ := ih _ _ _ h hn
      exact ⟨e', List.mem_cons_of_mem _ e1, e2⟩

theorem runBody_builds {k : Nat} {r : R} (hb : (g r).tidy = true)
    (hreal : ∀ p s o t, p.isReal = true → f p s = .ok o → o.tree = some t → t.tag ≠ Tag.HOIST) {s : Strm} {w : Option SNode × Strm} {n : SNode}
    (h : runBody x f k (g r) s = .ok w) (hw : w.1 = some n) : Builds s.all x g (.rule r) (spread (some n)) := by
  cases hg : g r with
  | comb p =>
    rw [hg] at h hb
    rw [Body.tidy, Bool.and_eq_true] at hb
    rw [runBody] at h
    pbind h with o ho
    injection h with h; subst h
    have hw : o.tree = some n := hw
    have hok : o.ok = true := by
      by_contra hn
      have := (K.restores p s o hb.2 ho (by simpa using hn)).2
      rw [hw] at this; cases this
    rw [← hw]
    exact .comb hg (K.builds p s o hb.1 ho hok)
  | expr tag real =>
    rw [hg] at h hb
    simp only [Body.tidy, Bool.and_eq_true, bne_iff_ne, ne_eq] at hb
    obtain ⟨⟨⟨hb1, hb2⟩, hb3⟩, hb4⟩ := hb
    rw [runBody, runExpr] at h
    pbind h with t ht
    split at h
    · injection h with h; subst h; cases hw
    · pbind h with u hu
      split at h
      · injection h with h; subst h; cases hw
      · injection h with h; subst h; cases hw
      · next ks hne hks =>
        pbind h with c hc
        injection h with h; subst h
        injection hw with hw; subst hw
        obtain ⟨fs, f1, f2⟩ := untilBreak_builds K hb2 hb3 (fun s o t => hreal real s o t hb4) _ _ _ _ _ hu ks hks
        obtain ⟨c1, c2⟩ := cover_spread (up_ok hc)
        rw [spread_under, c1, c2, putUnder, if_neg (show ¬ (SNode.node tag none ks).tag = Tag.HOIST from hb1)]
        rw [List.nil_append] at f1
        subst f1
        exact .expr hg (fun hc => hne hc) f2
  | parens =>
    rw [hg] at h
    rw [runBody, runParens] at h
    pbind h with t ht
    split at h
    · injection h with h; subst h; cases hw
    · next hp =>
      have hp : t = Tag.TK_PARENL := by simpa using hp
      pbind h with r' hr'
      pbind h with q hq
      pbind h with c hc
      injection h with h; subst h
      injection hw with hw; subst hw
      obtain ⟨e1, e2, _⟩ := digest_ok (s' := r'.2) (r := r'.1) (up_ok hr')
      obtain ⟨_, a, a1, a2⟩ := peek_tok (up_ok ht) (by rw [hp]; decide)
      obtain ⟨fs, j, b, f1, f2, f3, f4⟩ := parensLoop_builds _ _ _ _ _ hq (by omega)
      obtain ⟨c1, c2⟩ := cover_spread (up_ok hc)
      rw [spread_under, c1, c2]
      simp only [SNode.tag, SNode.kids, putUnder, if_pos]
      rw [f1, e2, hp]
      rw [e1] at f2 f4
      exact .parens hg a1 (a2.trans hp) f2 f3 f4
  | listName =>
    rw [hg] at h
    rw [runBody] at h
    have h := up_ok h
    rw [runListName] at h
    rbind h with t ht
    rbind h with b hb'
    cases b with
    | false => injection h with h; subst h; cases hw
    | true =>
      rw [if_pos rfl] at h
      rbind h with nx hnx
      split at h
      · rbind h with r' hr'
        injection h with h; subst h
        injection hw with hw; subst hw
        obtain ⟨e1, e2, _⟩ := digest_ok (s' := r'.2) (r := r'.1) hr'
        rw [Strm.peekAt] at ht
        rbind ht with a ha
        injection ht with ht
        rw [e2, spread, if_neg (show ¬ (SNode.node Tag.TK_NAME _ _).tag = Tag.HOIST from by simp [SNode.tag]; decide)]
        have ha' : s.all[s.pos]? = some a := by
          have hbad : a ≠ badTok := by
            rintro rfl
            rw [← ht] at hb'
            exact absurd hb' (by decide +kernel)
          rw [Strm.peekTT] at ha
          simp only [Nat.sub_self, Nat.add_zero] at ha
          split at ha
          · split at ha
            · exact (deref_cases ha).resolve_right hbad
            · injection ha with ha; exact absurd ha.symm hbad
          · cases ha
        exact .listName hg ha' (by rw [ht]; exact of_decide_eq_true (nameTag_iff hb').symm)
      · injection h with h; subst h; cases hw
  | procDesignator p =>
    rw [hg] at h hb
    rw [Body.tidy, Bool.and_eq_true] at hb
    rw [runBody, runDesignator] at h
    pbind h with e he
    pbind h with rr hrr
    pbind h with o ho
    injection h with h; subst h
    have hw : o.tree = some n := hw
    have hok : o.ok = true := by
      by_contra hn
      have := (K.restores p _ o hb.2 ho (by simpa using hn)).2
      rw [hw] at this; cases this
    rw [← hw]
    exact .designator hg (K.builds p (Strm.mk' s.all rr.1 rr.2) o hb.1 ho hok)
  | withExts a p =>
    rw [hg] at h hb
    rw [Body.tidy] at hb
    rw [runBody] at h
    pbind h with o ho
    split at h
    · next hok =>
      injection h with h; subst h
      have hw : o.tree = some n := hw
      rw [← hw]
      exact .withExts hg (K.builds p s o hb ho hok)
    · have h := up_ok h
      have key : ∃ e ∈ (if a then x.action else x.other), ∃ s' q t rg, e s' = .ok (some t, q) ∧ n = .node (extTag a) rg (spread (some t)) := by
        rw [runExts] at h
        cases a with
        | true => exact extLoop_builds _ _ _ _ h hw
        | false => exact extLoop_builds _ _ _ _ h hw
      obtain ⟨e, e1, s', q, t, rg, e2, rfl⟩ := key
      have hne : extTag a ≠ Tag.HOIST := by cases a <;> decide
      rw [show spread (some (SNode.node (extTag a) rg (spread (some t)))) = [.node (extTag a) rg (spread (some t))] from if_neg hne]
      exact .ext hg ⟨e, e1, s', q, e2⟩

theorem step_builds (hg : ∀ r, (g r).tidy = true)
    (hreal : ∀ p s o t, p.isReal = true → f p s = .ok o → o.tree = some t → t.tag ≠ Tag.HOIST) {k : Nat} {p : P} {s : Strm} {o : Out}
    (ht : p.tidy = true) (h : step g x f k p s = .ok o) (ho : o.ok = true) : Builds s.all x g p (spread o.tree) := by
  have hleaf : ∀ {t : Int} {o : Out}, leaf t s = .ok o → t ≠ Tag.HOIST → spread o.tree = [leafAt t s.pos] := by
    intro t o h hne
    obtain ⟨rfl, _⟩ := leaf_ok h
    exact if_neg hne
  cases p with
  | alts tag ps =>
    rw [P.tidy] at ht
    rw [step] at h
    pbind h with o1 h1
    split at h
    · next hok =>
      pbind h with n hn
      injection h with h; subst h
      obtain ⟨p, p1, p2⟩ := altsLoop_builds K ps s o1 ht h1 hok
      obtain ⟨c1, c2⟩ := cover_spread (up_ok hn)
      rw [spread_under, c1, c2, (hoistBack_spread _ _).1, (hoistBack_spread _ _).2]
      exact .alts p1 p2
    · next hok => injection h with h; subst h; exact absurd ho hok
  | letter =>
    rw [step, runLetter] at h
    have h := up_ok h
    rbind h with v hv
    rbind h with b hb
    cases b with
    | false => injection h with h; subst h; cases ho
    | true =>
      rw [if_pos rfl] at h
      rbind h with tt htt
      obtain ⟨q1, a, q2, q3, q4⟩ := peek_name hv hb
      have := peekTT_tok htt q1 q2
      subst this
      split at h
      · injection h with h; subst h; cases ho
      · next hl =>
        rw [hleaf h (by decide)]
        exact .letter q2 (by rw [q3]; exact q4) (by simpa using hl)
  | literal w =>
    rw [step, runLiteral] at h
    have h := up_ok h
    rbind h with v hv
    rbind h with b hb
    cases b with
    | false => injection h with h; subst h; cases ho
    | true =>
      rw [if_pos rfl] at h
      rbind h with tt htt
      obtain ⟨q1, a, q2, q3, q4⟩ := peek_name hv hb
      have := peekTT_tok htt q1 q2
      subst this
      split at h
      · injection h with h; subst h; cases ho
      · next hl =>
        rw [hleaf h (by decide)]
        exact .literal q2 (by rw [q3]; exact q4) (by simpa using hl)
  | name =>
    rw [step, runName] at h
    have h := up_ok h
    rbind h with v hv
    rbind h with b hb
    cases b with
    | false => injection h with h; subst h; cases ho
    | true =>
      rw [if_pos rfl] at h
      obtain ⟨q1, a, q2, q3, q4⟩ := peek_name hv hb
      rw [hleaf h (by decide)]
      exact .name q2 (by rw [q3]; exact q4)
  | neg p =>
    rw [P.tidy] at ht
    rw [step] at h
    pbind h with o1 h1
    injection h with h; subst h
    rw [show ({ o1 with ok := !o1.ok } : Out).tree = o1.tree from rfl, (K.restores p s o1 ht h1 (by simpa using ho)).2]
    exact .neg
  | opt p =>
    rw [P.tidy, Bool.and_eq_true] at ht
    rw [step] at h
    pbind h with o1 h1
    injection h with h; subst h
    show Builds s.all x g (.opt p) (spread o1.tree)
    by_cases hok : o1.ok = true
    · exact .opt (K.builds p s o1 ht.1 h1 hok)
    · rw [(K.restores p s o1 ht.2 h1 (by simpa using hok)).2]
      exact .optNo
  | peek t =>
    rw [step, runPeek] at h
    have h := up_ok h
    rbind h with v hv
    injection h with h; subst h
    exact .peek
  | rule r =>
    rw [step] at h
    pbind h with w hw
    split at h
    · injection h with h; subst h; cases ho
    · next n hn =>
      injection h with h; subst h
      exact runBody_builds K (hg r) hreal hw hn
  | seq tag ps =>
    rw [P.tidy] at ht
    rw [step] at h
    pbind h with w hw
    split at h
    · next hok =>
      pbind h with n hn
      injection h with h; subst h
      obtain ⟨fs, f1, f2⟩ := seqLoop_builds K ps s _ w ht hw hok
      obtain ⟨c1, c2⟩ := cover_spread (up_ok hn)
      rw [spread_under, c1, c2]
      simp only [SNode.kids, SNode.tag, List.nil_append] at f1 ⊢
      rw [f1]
      exact .seq f2
    · injection h with h; subst h; cases ho
  | star p =>
    rw [P.tidy, Bool.and_eq_true] at ht
    rw [step] at h
    pbind h with w hw
    pbind h with n hn
    injection h with h; subst h
    obtain ⟨e0, fs, f1, f2⟩ := starLoop_builds K ht.1 ht.2 _ _ _ _ hw
    obtain ⟨c1, c2⟩ := cover_spread (up_ok hn)
    rw [spread_under, c1, c2, e0]
    simp only [SNode.kids, SNode.tag, List.nil_append] at f1 ⊢
    rw [f1, putUnder, if_pos rfl]
    exact .star f2
  | tagIf tag p =>
    rw [P.tidy, Bool.and_eq_true] at ht
    rw [step] at h
    pbind h with o1 h1
    split at h
    · next t htr =>
      pbind h with n hn
      injection h with h; subst h
      have hok : o1.ok = true := ho
      have := K.builds p s o1 ht.1 h1 hok
      rw [htr] at this
      obtain ⟨c1, c2⟩ := cover_spread (up_ok hn)
      show Builds s.all x g (.tagIf tag p) (spread (some n))
      rw [spread_under, c1, c2, (hoistBack_spread _ _).1, (hoistBack_spread _ _).2]
      exact .tagIf this
    · next htr =>
      injection h with h; subst h
      obtain ⟨t, ht'⟩ := K.tree p s o1 (by simpa using ht.2) h1 ho
      rw [htr] at ht'; cases ht'
  | tok t =>
    rw [P.tidy] at ht
    rw [step, runTok] at h
    have h := up_ok h
    rbind h with v hv
    split at h
    · injection h with h; subst h; cases ho
    · next he =>
      have he : t = v := by simpa using he
      subst he
      simp only [Bool.and_eq_true, bne_iff_ne, ne_eq] at ht
      obtain ⟨_, a, a1, a2⟩ := peek_tok hv ht.1
      rw [hleaf h ht.2]
      exact .tok a1 a2

theorem step_tree {k : Nat} {p : P} {s : Strm} {o : Out} (hb : p.bare = false) (h : step g x f k p s = .ok o) (ho : o.ok = true) :
    ∃ t, o.tree = some t := by
  have hleaf : ∀ {t : Int} {o : Out}, leaf t s = .ok o → ∃ n, o.tree = some n := by
    intro t o h
    obtain ⟨rfl, _⟩ := leaf_ok h
    exact ⟨_, rfl⟩
  cases p with
  | alts tag ps =>
    rw [step] at h
    pbind h with o1 h1
    split at h
    · pbind h with n hn
      injection h with h; subst h
      exact ⟨_, rfl⟩
    · next hok => injection h with h; subst h; exact absurd ho hok
  | letter =>
    rcases runLetter_out (up_ok h) with rfl | ⟨_, rfl, _⟩
    · cases ho
    · exact ⟨_, rfl⟩
  | literal w =>
    rcases runLiteral_out (up_ok h) with rfl | ⟨_, rfl, _⟩
    · cases ho
    · exact ⟨_, rfl⟩
  | name =>
    rcases runName_out (up_ok h) with rfl | ⟨_, rfl, _⟩
    · cases ho
    · exact ⟨_, rfl⟩
  | neg p => cases hb
  | opt p => cases hb
  | peek t => cases hb
  | rule r =>
    rw [step] at h
    pbind h with w hw
    split at h
    · injection h with h; subst h; cases ho
    · injection h with h; subst h; exact ⟨_, rfl⟩
  | seq tag ps =>
    rw [step] at h
    pbind h with w hw
    split at h
    · pbind h with n hn
      injection h with h; subst h
      exact ⟨_, rfl⟩
    · injection h with h; subst h; cases ho
  | star p =>
    rw [step] at h
    pbind h with w hw
    pbind h with n hn
    injection h with h; subst h
    exact ⟨_, rfl⟩
  | tagIf tag p =>
    rw [step] at h
    pbind h with o1 h1
    split at h
    · pbind h with n hn
      injection h with h; subst h
      exact ⟨_, rfl⟩
    · next htr =>
      injection h with h; subst h
      exact K.tree p s o1 hb h1 ho
  | tok t =>
    rw [step, runTok] at h
    have h := up_ok h
    rbind h with v hv
    split at h
    · injection h with h; subst h; cases ho
    · exact hleaf h

end main

/-- The tree of a real constant is not hoisted. -/
theorem eval_real_tag {g : R → Body} {x : Exts} {n : Nat} {p : P} {s : Strm} {o : Out} {t : SNode} (hp : p.isReal = true)
    (h : eval g x n p s = .ok o) (ht : o.tree = some t) : t.tag ≠ Tag.HOIST := by
  cases n with
  | zero => cases h
  | succ n =>
    cases p with
    | seq tag ps =>
      rw [eval, step] at h
      pbind h with w hw
      split at h
      · pbind h with c hc
        injection h with h; subst h
        injection ht with ht; subst ht
        rw [(cover_spread (up_ok hc)).2]
        cases ps with
        | nil => cases hp
        | cons q qs =>
          cases q with
          | tok u =>
            simp only [P.isReal, Bool.and_eq_true, bne_iff_ne, ne_eq] at hp
            exact hp.1.1.1
          | _ => cases hp
      · injection h with h; subst h; cases ht
    | _ => cases hp

theorem eval_builds {g : R → Body} (hg : ∀ r, (g r).tidy = true) (x : Exts) : ∀ n, Building x g (eval g x n) := by
  intro n
  have hf : ∀ n, ∀ p s o, eval g x n p s = .ok o → Frame s o.s := fun n p s o h => eval_frame h
  induction n with
  | zero =>
    exact ⟨hf 0, fun _ _ _ _ h => (by cases h), fun _ _ _ _ h => (by cases h), eval_restores g x 0⟩
  | succ n ih =>
    refine ⟨hf _, ?_, ?_, eval_restores g x _⟩
    · intro p s o ht h ho
      rw [eval] at h
      exact step_builds ih hg (fun _ _ _ _ hp h ht => eval_real_tag hp h ht) ht h ho
    · intro p s o hb h ho
      rw [eval] at h
      exact step_tree ih hb h ho

/-- What any rule returns is built by its body. -/
theorem rule_builds {x : Exts} {n : Nat} {r : R} {s : Strm} {w : Option SNode × Strm} {t : SNode}
    (h : evalRule R.body x n r s = .ok w) (hw : w.1 = some t) : Builds s.all x R.body (.rule r) (spread (some t)) :=
  runBody_builds (eval_builds grammar_tidy x n) (grammar_tidy r) (fun _ _ _ _ hp h ht => eval_real_tag hp h ht) h hw

end SP
end FLPR
