import Verif.StmtParser.CoverLemmas
/-! # The main lemma about trees, by the number of calls -/

namespace FLPR
namespace SP
open Spec

section calls
variable (u : R → Bool)

mutual
/-- Calls a rule of `u`. -/
def P.calls : P → Bool
  | .rule r => u r
  | .seq _ ps => P.callsAny ps
  | .alts _ ps => P.callsAny ps
  | .star p => p.calls
  | .opt p => p.calls
  | .neg p => p.calls
  | .tagIf _ p => p.calls
  | .letter => false
  | .literal _ => false
  | .name => false
  | .peek _ => false
  | .tok _ => false
def P.callsAny : List P → Bool
  | [] => false
  | p :: ps => p.calls || P.callsAny ps
end

/-- Is `procedure_designator`, or calls a rule of `u`. -/
def Body.calls : Body → Bool
  | .comb p => p.calls u
  | .expr _ real => real.calls u
  | .parens => false
  | .listName => false
  | .procDesignator _ => true
  | .withExts _ p => p.calls u

end calls

/-- Where undefined behaviour is possible: the statement ends in ')' and a rule of `u` is called. -/
def Risk (b : Bool) (s : Strm) : Prop := EndsInParen s ∧ b = true

/-- What is known of the inner parsers. -/
structure Known (u : R → Bool) (f : P → Strm → PRes Out) : Prop where
  safe : ∀ p s, p.good = true → GoodStmt s →
    Safe (Risk (p.calls u) s) (f p s) (fun o => PostAt s s.pos o.tree o.s)
  adv : ∀ p s o, f p s = .ok o → Adv false s o.s
  restores : ∀ p s o, p.restores = true → f p s = .ok o → Restored s o
  real : ∀ p s o, p.isReal = true → s.peek = .ok Tag.SG_SIGNIFICAND → f p s = .ok o →
    PlainIn (tagsOf s) s.pos o.s.pos ∧ ∃ t, o.tree = some t ∧ t.tag ≠ Tag.HOIST
  ends : ∀ p s o n, p.endsSeq = true → f p s = .ok o → o.tree = some n → o.s.peek = .ok Tag.BAD

section main
variable {u : R → Bool} {f : P → Strm → PRes Out} (K : Known u f)

theorem risk_head {u : R → Bool} {p : P} {ps : List P} {s : Strm} (h : Risk (p.calls u) s) :
    Risk (P.callsAny u (p :: ps)) s := ⟨h.1, by rw [P.callsAny, h.2]; rfl⟩

theorem risk_tail {u : R → Bool} {p : P} {ps : List P} {s : Strm} (h : Risk (P.callsAny u ps) s) :
    Risk (P.callsAny u (p :: ps)) s := ⟨h.1, by rw [P.callsAny, h.2, Bool.or_true]⟩

include K in
theorem altsLoop_safe : ∀ ps s, P.goodAll ps = true → P.restoresAll ps = true → GoodStmt s →
    Safe (Risk (P.callsAny u ps) s) (altsLoop f ps s) (fun o => PostAt s s.pos o.tree o.s) := by
  intro ps
  induction ps with
  | nil => intro s _ _ h; exact ⟨s.pos, rfl, le_refl _, h.pos_hi, rfl⟩
  | cons p ps ih =>
    intro s hg hr h
    rw [P.goodAll, Bool.and_eq_true] at hg
    rw [P.restoresAll, Bool.and_eq_true] at hr
    rw [altsLoop]
    have h1 : Safe (Risk (P.callsAny u (p :: ps)) s) (f p s)
        (fun o => PostAt s s.pos o.tree o.s ∧ Restored s o) :=
      ((K.safe p s hg.1 h).weaken risk_head).mono (fun o ho hq => ⟨hq, K.restores _ _ _ hr.1 ho⟩)
    refine h1.bind (fun o ho => ?_)
    by_cases hok : o.ok = true
    · rw [if_pos hok]; exact ho.1
    · rw [if_neg hok, (ho.2 (by simpa using hok)).1]
      exact (ih s hg.2 hr.2 h).weaken risk_tail

include K in
theorem seqLoop_safe {s : Strm} (h : GoodStmt s) {b : Nat} {t : Int} {r : Rng} :
    ∀ ps q ks, P.goodAll ps = true → s.lo ≤ q → q ≤ s.hi → CoversAll (tagsOf s) ks b q →
    Safe (Risk (P.callsAny u ps) s) (seqLoop f ps (s.goto q) (.node t r ks))
      (fun w => ∃ q' ks', w.1 = .node t r ks' ∧ w.2.2 = s.goto q' ∧ q ≤ q' ∧ q' ≤ s.hi ∧
        CoversAll (tagsOf s) ks' b q') := by
  intro ps
  induction ps with
  | nil => intro q ks _ h1 h2 h3; exact ⟨q, ks, rfl, rfl, le_refl _, h2, h3⟩
  | cons p ps ih =>
    intro q ks hg h1 h2 h3
    rw [P.goodAll, Bool.and_eq_true] at hg
    rw [seqLoop]
    have h4 : Safe (Risk (P.callsAny u (p :: ps)) s) (f p (s.goto q)) _ :=
      (K.safe p (s.goto q) hg.1 (GoodStmt_goto h h1 h2)).weaken risk_head
    refine h4.bind (fun o ho => ?_)
    obtain ⟨q', hq, hle, hhi, htree⟩ := ho
    simp only [Strm.goto_goto, Strm.goto_pos, Strm.goto_hi] at hq hle hhi htree
    obtain ⟨ks', hk, hc⟩ := hoist_covers (t := t) (r := r) h.tags h3 htree
    split
    · rw [hq, hk]
      refine ((ih q' ks' hg.2 (by omega) hhi hc).weaken risk_tail).mono ?_
      rintro w _ ⟨q2, ks2, e1, e2, e3, e4, e5⟩
      exact ⟨q2, ks2, e1, e2, by omega, e4, e5⟩
    · exact ⟨q', ks', hk, hq, hle, hhi, hc⟩

include K in
theorem starLoop_safe {s : Strm} (h : GoodStmt s) {b : Nat} {t : Int} {r : Rng} {p : P}
    (hg : p.good = true) :
    ∀ k q ks, s.lo ≤ q → q ≤ s.hi → CoversAll (tagsOf s) ks b q →
    Safe (Risk (p.calls u) s) (starLoop f p k (s.goto q) (.node t r ks))
      (fun w => ∃ q' ks', w.1 = .node t r ks' ∧ w.2 = s.goto q' ∧ q ≤ q' ∧ q' ≤ s.hi ∧
        CoversAll (tagsOf s) ks' b q') := by
  intro k
  induction k with
  | zero => intro q ks h1 h2 h3; exact trivial
  | succ k ih =>
    intro q ks h1 h2 h3
    rw [starLoop]
    refine Safe.bind (K.safe p (s.goto q) hg (GoodStmt_goto h h1 h2)) (fun o ho => ?_)
    obtain ⟨q', hq, hle, hhi, htree⟩ := ho
    simp only [Strm.goto_goto, Strm.goto_pos, Strm.goto_hi] at hq hle hhi htree
    obtain ⟨ks', hk, hc⟩ := hoist_covers (t := t) (r := r) h.tags h3 htree
    split
    · rw [hq, hk]
      refine (ih q' ks' (by omega) hhi hc).mono ?_
      rintro w _ ⟨q2, ks2, e1, e2, e3, e4, e5⟩
      exact ⟨q2, ks2, e1, e2, by omega, e4, e5⟩
    · exact ⟨q', ks', hk, hq, hle, hhi, hc⟩

theorem closed_plainIn {l : List Int} {k q' hi : Nat} : ∀ (n q : Nat), q' - q = n → q ≤ q' → q' ≤ hi →
    PlainIn l q q' →
    Closed opE clE k (tokSlice l q hi) → Closed opE clE k (tokSlice l q' hi) := by
  intro n
  induction n with
  | zero => intro q h1 h2 h3 _ h5; rwa [show q' = q by omega]
  | succ n ih =>
    intro q h1 h2 h3 h4 h5
    obtain ⟨t, ht, e1, e2⟩ := h4 q (le_refl _) (by omega)
    rw [slice_cons (by omega) ht, closed_plain e1 e2] at h5
    exact ih (q + 1) (by omega) (by omega) h3 (fun i h6 h7 => h4 i (by omega) h7) h5

/-- How a turn of `consume_until_break` changes the number of open groups. -/
theorem breakStep_closed {t : Int} {k : Nat} {ts : List Int} {d' : Int}
    (h : breakStep t (k + 1 : Nat) = .take d') (hc : Closed opE clE k (t :: ts)) :
    ∃ k', d' = ((k' + 1 : Nat) : Int) ∧ Closed opE clE k' ts ∧
      (opE t = false → clE t = false → k' = k) := by
  have cut : ∀ hcl : clE t = true, opE t = false →
      (if ((k + 1 : Nat) : Int) - 1 = 0 then BreakStep.stop else .take (((k + 1 : Nat) : Int) - 1)) = .take d' →
      ∃ k', d' = ((k' + 1 : Nat) : Int) ∧ Closed opE clE k' ts ∧ (opE t = false → clE t = false → k' = k) := by
    intro hcl hop h
    split at h
    · cases h
    · next hk =>
      injection h with h
      obtain ⟨k, rfl⟩ : ∃ k2, k = k2 + 1 := ⟨k - 1, by omega⟩
      exact ⟨k, by omega, (closed_close hop hcl).mp hc, by simp [hcl]⟩
  rw [breakStep] at h
  by_cases h1 : t = Tag.TK_PARENL
  · subst h1
    rw [if_pos rfl] at h
    injection h with h
    exact ⟨k + 1, by omega, (closed_open (by decide)).mp hc, fun h => by simp [opE] at h⟩
  · rw [if_neg h1] at h
    by_cases h2 : t = Tag.TK_BRACKETL
    · subst h2
      rw [if_pos rfl] at h
      injection h with h
      exact ⟨k + 1, by omega, (closed_open (by decide)).mp hc, fun h => by simp [opE] at h⟩
    · rw [if_neg h2] at h
      by_cases h3 : t = Tag.TK_PARENR
      · subst h3
        rw [if_pos rfl] at h
        exact cut (by decide) (by decide) h
      · rw [if_neg h3] at h
        by_cases h4 : t = Tag.TK_BRACKETR
        · subst h4
          rw [if_pos rfl] at h
          exact cut (by decide) (by decide) h
        · rw [if_neg h4] at h
          have hp := delimsE.plain t ⟨h1, h3, h2, h4⟩
          have hc' := (closed_plain hp.1 hp.2).mp hc
          have hd : d' = ((k + 1 : Nat) : Int) := by
            split at h
            · split at h
              · cases h
              · split at h
                · cases h
                · split at h
                  · cases h
                  · split at h
                    · cases h
                    · injection h with h; exact h.symm
            · injection h with h; exact h.symm
          exact ⟨k, hd, hc', fun _ _ => rfl⟩

theorem breakStep_bad : breakStep Tag.BAD 1 = .stop := by rfl

include K in
theorem untilBreak_safe {s : Strm} (h : GoodStmt s) {b : Nat} {real : P} (hr : real.isReal = true)
    (hg : real.good = true) :
    ∀ n q k ks, s.lo ≤ q → q ≤ s.hi → Closed opE clE k (tokSlice (tagsOf s) q s.hi) →
    CoversAll (tagsOf s) ks b q →
    Safe (Risk (real.calls u) s) (untilBreak f real n (s.goto q) ((k + 1 : Nat) : Int) ks)
      (fun w => ∃ q', w.2 = s.goto q' ∧ q ≤ q' ∧ q' ≤ s.hi ∧
        ∀ ks', w.1 = some ks' → CoversAll (tagsOf s) ks' b q') := by
  intro n
  induction n with
  | zero => intro q k ks _ _ _ _; exact trivial
  | succ n ih =>
    intro q k ks h1 h2 hc h3
    rw [untilBreak]
    have hgq := GoodStmt_goto h h1 h2
    have hlen := h.hi_len
    rcases peek_good hgq with ⟨he, hp⟩ | ⟨t, hlt, ht, hp, hlx⟩
    · have he : q = s.hi := he
      rw [hp]
      simp only [up_of_ok, PRes.ok_bind]
      have hk : k = 0 := by rw [he, slice_nil, Closed] at hc; exact hc
      subst hk
      rw [show breakStep Tag.BAD ((0 + 1 : Nat) : Int) = .stop from breakStep_bad]
      exact ⟨q, rfl, le_refl _, h2, fun ks' e => by injection e with e; subst e; exact h3⟩
    · have hlt : q < s.hi := hlt
      have ht : (tagsOf s)[q]? = some t := ht
      rw [hp]
      simp only [up_of_ok, PRes.ok_bind]
      rw [slice_cons hlt ht] at hc
      cases hb : breakStep t ((k + 1 : Nat) : Int) with
      | stop => exact ⟨q, rfl, le_refl _, h2, fun ks' e => by injection e with e; subst e; exact h3⟩
      | fail => exact ⟨q, rfl, le_refl _, h2, fun ks' e => by cases e⟩
      | take d' =>
        obtain ⟨k', rfl, hc', hpl⟩ := breakStep_closed hb hc
        by_cases hsig : t = Tag.SG_SIGNIFICAND
        · subst hsig
          simp only [if_true]
          have h4 : Safe (Risk (real.calls u) s) (f real (s.goto q)) (fun o =>
              PostAt (s.goto q) q o.tree o.s ∧ PlainIn (tagsOf s) q o.s.pos ∧
                ∃ t, o.tree = some t ∧ t.tag ≠ Tag.HOIST) :=
            (K.safe real (s.goto q) hg hgq).mono (fun o ho hq => ⟨hq, K.real _ _ _ hr hp ho⟩)
          refine h4.bind (fun o ho => ?_)
          obtain ⟨⟨q', hq, hle, hhi, htree⟩, hplain, nd, hnd, hntag⟩ := ho
          simp only [Strm.goto_goto, Strm.goto_hi] at hq hhi
          rw [hnd] at htree ⊢
          have htree : Covers (tagsOf s) nd q q' := htree
          rw [hq] at hplain ⊢
          simp only [Strm.goto_pos] at hplain
          simp only [graftBack, up_of_ok, PRes.ok_bind]
          have hk : k' = k := hpl (by decide) (by decide)
          subst hk
          have hc2 : Closed opE clE k' (tokSlice (tagsOf s) q' s.hi) := by
            refine closed_plainIn _ q rfl hle hhi hplain ?_
            rw [slice_cons hlt ht]
            exact hc
          refine (ih q' k' _ (by omega) hhi hc2
            (coversAll_append h3 (coversAll_one htree hntag))).mono ?_
          rintro w _ ⟨q2, e1, e2, e3, e4⟩
          exact ⟨q2, e1, by omega, e3, e4⟩
        · simp only [if_neg hsig]
          rw [digest_of (by simp; omega)]
          simp only [up_of_ok, PRes.ok_bind, Strm.goto_goto, Strm.goto_pos]
          have hcov : Covers (tagsOf s) (.node t (some (q, q + 1)) []) q (q + 1) := by
            rw [Covers]; exact .inl ⟨rfl, rfl, .inl ht⟩
          refine (ih (q + 1) k' _ (by omega) (by omega) hc'
            (coversAll_append h3 (coversAll_one hcov hlx.2.2))).mono ?_
          rintro w _ ⟨q2, e1, e2, e3, e4⟩
          exact ⟨q2, e1, by omega, e3, e4⟩

theorem closed_at {op cl : Int → Bool} (hd : Delims op cl) {s : Strm} (h : GoodStmt s) {q : Nat}
    (h1 : s.lo ≤ q) : Closed op cl 0 (tokSlice (tagsOf s) q s.hi) := by
  obtain ⟨base, hb, hw⟩ := h.nested
  rw [← slice_drop (b := base) (by omega)]
  exact wn_drop hd hw _

include K in
theorem runExpr_safe {s : Strm} (h : GoodStmt s) {real : P} (hr : real.isReal = true)
    (hg : real.good = true) {k : Nat} {tag : Int} :
    Safe (Risk (real.calls u) s) (runExpr f k tag real s) (fun w => PostAt s s.pos w.1 w.2) := by
  have no : PostAt s s.pos none s := ⟨s.pos, rfl, le_refl _, h.pos_hi, rfl⟩
  obtain ⟨t, hp⟩ : ∃ t, s.peek = .ok t := by
    rcases peek_good h with ⟨_, hp⟩ | ⟨t, _, _, hp, _⟩
    · exact ⟨_, hp⟩
    · exact ⟨_, hp⟩
  rw [runExpr, hp]
  simp only [up_of_ok, PRes.ok_bind]
  split
  · exact no
  · have h1 := untilBreak_safe K h (b := s.pos) hr hg k s.pos 0 [] h.lo_pos h.pos_hi
      (closed_at delimsE h h.lo_pos) (by rw [CoversAll])
    rw [Strm.goto_self] at h1
    refine Safe.bind h1 (fun w hw => ?_)
    obtain ⟨q', hq, hle, hhi, hc⟩ := hw
    split
    · exact no
    · next hw1 =>
      have := hc _ hw1
      rw [CoversAll] at this
      exact ⟨q', hq, hle, hhi, this.symm⟩
    · next ks _ hw1 =>
      obtain ⟨r', he, hcv⟩ := cover_ok (t := tag) (r := none) (hc _ hw1) (fun _ => rfl)
      rw [he]
      exact ⟨q', hq, hle, hhi, hcv⟩

theorem parensLoop_safe {E : Prop} {s : Strm} (h : GoodStmt s) {b : Nat} :
    ∀ n q k ks, s.lo ≤ q → q ≤ s.hi → Closed opP clP k (tokSlice (tagsOf s) q s.hi) →
    CoversAll (tagsOf s) ks b q →
    Safe E (parensLoop n (s.goto q) (k : Int) ks)
      (fun w => ∃ q', w.2 = s.goto q' ∧ q ≤ q' ∧ q' ≤ s.hi ∧ CoversAll (tagsOf s) w.1 b q') := by
  intro n
  induction n with
  | zero => intro q k ks _ _ _ _; exact trivial
  | succ n ih =>
    intro q k ks h1 h2 hc h3
    rw [parensLoop]
    have hgq := GoodStmt_goto h h1 h2
    have hlen := h.hi_len
    by_cases hk : (k : Int) > 0
    · rw [if_pos hk]
      obtain ⟨k, rfl⟩ : ∃ k2, k = k2 + 1 := ⟨k - 1, by omega⟩
      rcases peek_good hgq with ⟨he, hp⟩ | ⟨t, hlt, ht, hp, hlx⟩
      · exfalso
        have he : q = s.hi := he
        rw [he, slice_nil, Closed] at hc
        omega
      · have hlt : q < s.hi := hlt
        have ht : (tagsOf s)[q]? = some t := ht
        rw [hp]
        simp only [up_of_ok, PRes.ok_bind]
        rw [slice_cons hlt ht] at hc
        have hcov : Covers (tagsOf s) (.node t (some (q, q + 1)) []) q (q + 1) := by
          rw [Covers]; exact .inl ⟨rfl, rfl, .inl ht⟩
        have hcs := coversAll_append h3 (coversAll_one hcov hlx.2.2)
        have fin : ∀ k', Closed opP clP k' (tokSlice (tagsOf s) (q + 1) s.hi) →
            Safe E (parensLoop n (s.goto (q + 1)) (k' : Int) (ks ++ [.node t (some (q, q + 1)) []]))
              (fun w => ∃ q', w.2 = s.goto q' ∧ q ≤ q' ∧ q' ≤ s.hi ∧ CoversAll (tagsOf s) w.1 b q') := by
          intro k' hc'
          refine (ih (q + 1) k' _ (by omega) (by omega) hc' hcs).mono ?_
          rintro w _ ⟨q2, e1, e2, e3, e4⟩
          exact ⟨q2, e1, by omega, e3, e4⟩
        rw [digest_of (by simp; omega)]
        simp only [up_of_ok, PRes.ok_bind, Strm.goto_goto, Strm.goto_pos]
        by_cases hl : t = Tag.TK_PARENL
        · rw [if_pos hl]
          subst hl
          have := fin (k + 1 + 1) ((closed_open (by decide)).mp hc)
          simpa using this
        · rw [if_neg hl]
          by_cases hr : t = Tag.TK_PARENR
          · rw [if_pos hr]
            subst hr
            have := fin k ((closed_close (by decide) (by decide)).mp hc)
            rw [show ((k + 1 : Nat) : Int) - 1 = (k : Int) by omega]
            exact this
          · rw [if_neg hr, if_neg hlx.2.1]
            exact fin (k + 1) ((closed_plain (by simp [opP, hl]) (by simp [clP, hr])).mp hc)
    · rw [if_neg hk]
      exact ⟨q, rfl, le_refl _, h2, h3⟩

theorem runParens_safe {E : Prop} {s : Strm} (h : GoodStmt s) {k : Nat} :
    Safe E (runParens k s) (fun w => PostAt s s.pos w.1 w.2) := by
  have no : PostAt s s.pos none s := ⟨s.pos, rfl, le_refl _, h.pos_hi, rfl⟩
  have hlen := h.hi_len
  have hlo := h.lo_pos
  rw [runParens]
  rcases peek_good h with ⟨_, hp⟩ | ⟨t, hlt, ht, hp, hlx⟩
  · rw [hp]
    simp only [up_of_ok, PRes.ok_bind]
    rw [if_pos parenL_ne_bad.symm]
    exact no
  · rw [hp]
    simp only [up_of_ok, PRes.ok_bind]
    by_cases hl : t ≠ Tag.TK_PARENL
    · rw [if_pos hl]; exact no
    · rw [if_neg hl]
      have hl : t = Tag.TK_PARENL := by simpa using hl
      subst hl
      rw [digest_of (by omega)]
      simp only [up_of_ok, PRes.ok_bind]
      have hc := closed_at delimsP h h.lo_pos
      rw [slice_cons hlt ht, closed_open (by decide)] at hc
      have hcov : Covers (tagsOf s) (.node Tag.TK_PARENL (some (s.pos, s.pos + 1)) []) s.pos (s.pos + 1) := by
        rw [Covers]; exact .inl ⟨rfl, rfl, .inl ht⟩
      have h1 := parensLoop_safe (E := E) h (b := s.pos) k (s.pos + 1) 1 _ (by omega) (by omega) hc
        (coversAll_one hcov hlx.2.2)
      refine Safe.bind h1 (fun w hw => ?_)
      obtain ⟨q', hq, hle, hhi, hcv⟩ := hw
      obtain ⟨r', he, hcv⟩ := cover_ok (t := Tag.HOIST) (r := none) hcv (fun _ => rfl)
      rw [he]
      exact ⟨q', hq, by omega, hhi, hcv⟩

theorem paren_unique {l : List Int} {i i' j : Nat} (hb : ∀ t ∈ l, LexerTag t)
    (h1 : ParenPair l i j) (h2 : ParenPair l i' j) : i = i' := by
  have hj : j < l.length := by
    obtain ⟨pre, mid, post, rfl, rfl, rfl, _⟩ := h1
    simp; omega
  let s : Strm := { all := l.map (fun t => tokOf t), lo := 0, hi := l.length, pos := j + 1 }
  have ht : tagsOf s = l := by
    show (l.map (fun t => tokOf t)).map (·.token) = l
    rw [List.map_map]
    exact List.map_id' l
  have hg : GoodStream s := by
    refine ⟨by simp [s], by simp [s]; omega, by simp [s], ?_⟩
    intro t ht'
    obtain ⟨u, hu, rfl⟩ := List.mem_map.mp ht'
    exact (hb u hu).2.1
  have e1 := (C24_open s hg).1 i (by simp [s]) (by simp [s]) (by rw [ht]; exact h1)
  have e2 := (C24_open s hg).1 i' (by simp [s]) (by simp [s]) (by rw [ht]; exact h2)
  rw [e1] at e2
  injection e2 with e2
  injection e2 with _ e2
  have := congrArg Strm.pos e2
  simp at this
  exact this

theorem designatorEnd_good {s : Strm} (h : GoodStmt s) :
    ∃ e, designatorEnd s = .ok (s.goto e) ∧ e ≤ s.hi ∧ (¬ EndsInParen s → e = s.hi) ∧
      (s.pos ≤ e → GoodStmt (Strm.mk' s.all s.pos e)) := by
  have hlen := h.hi_len
  have hlo := h.lo_pos
  have hhi := h.pos_hi
  have hg : GoodStream (s.goto s.hi) := by
    refine ⟨by simp; omega, by simp, by simpa using hlen, ?_⟩
    intro t ht
    exact (h.tags t.token (List.mem_map.mpr ⟨t, ht, rfl⟩)).2.1
  have htags : ∀ b e, tagsOf (Strm.mk' s.all b e) = tagsOf s := fun _ _ => rfl
  obtain ⟨hyes, hno⟩ := C24_open (s.goto s.hi) hg
  simp only [Strm.goto_lo, Strm.goto_pos, Strm.goto_goto] at hyes hno
  rw [designatorEnd, Strm.consumeUntilEol]
  by_cases hex : ∃ i, s.lo ≤ i ∧ s.lo < s.hi ∧ ParenPair (tagsOf s) i (s.hi - 1)
  · obtain ⟨i, hi1, hi2, hpair⟩ := hex
    rw [hyes i hi1 hi2 hpair, Res.ok_bind, if_pos rfl, Strm.putBack_ok (by simp; omega)]
    have hends : EndsInParen s := by
      refine ⟨hi2, ?_⟩
      obtain ⟨mid, hj, _, ha⟩ := parenPair_at.mp hpair
      rw [At.cons, At.append, At.cons] at ha
      rw [hj]
      exact ha.2.2.1
    have hij : i < s.hi - 1 := by
      obtain ⟨mid, hj, _, _⟩ := parenPair_at.mp hpair
      omega
    refine ⟨i, rfl, by omega, fun hc => absurd hends hc, fun hpi => ?_⟩
    refine ⟨le_refl _, hpi, by show i ≤ s.all.length; omega, h.tags, ?_⟩
    obtain ⟨base, hb, hw⟩ := h.nested
    refine ⟨base, by show base ≤ s.pos; omega, ?_⟩
    show WellNested (tokSlice (tagsOf s) base i)
    have hll : s.hi ≤ (tagsOf s).length := by rw [Strm.len_tags]; exact hlen
    have hsl := slice_length (l := tagsOf s) (b := base) (e := s.hi) (by omega) hll
    have hat := slice_at (l := tagsOf s) (b := base) (e := s.hi) (by omega) hll
    have hsplit : tokSlice (tagsOf s) base s.hi = (tokSlice (tagsOf s) base s.hi).dropLast ++ [Tag.TK_PARENR] := by
      have hne : tokSlice (tagsOf s) base s.hi ≠ [] := by
        intro hc; rw [hc] at hsl; simp at hsl; omega
      have hlast : (tokSlice (tagsOf s) base s.hi).getLast hne = Tag.TK_PARENR := by
        rw [List.getLast_eq_getElem]
        have := hat ((tokSlice (tagsOf s) base s.hi).length - 1) (by omega)
        rw [show base + ((tokSlice (tagsOf s) base s.hi).length - 1) = s.hi - 1 by omega, hends.2] at this
        exact (Option.some.inj this).symm
      rw [← hlast]
      exact (List.dropLast_concat_getLast hne).symm
    obtain ⟨a, m, ham, hwa, hwm⟩ := wn_last hw _ hsplit
    rw [ham] at hat hsl
    rw [At.append] at hat
    have hpair2 : ParenPair (tagsOf s) (base + a.length) (s.hi - 1) := by
      refine parenPair_at.mpr ⟨m, ?_, wn_balanced hwm, hat.2⟩
      simp at hsl
      omega
    have hi : i = base + a.length := paren_unique h.tags hpair hpair2
    rw [hi, slice_eq_of_at hat.1 (by rw [Strm.len_tags]; omega)]
    exact hwa
  · rw [hno hex, Res.ok_bind, if_neg (by simp)]
    by_cases hends : EndsInParen s
    · refine ⟨s.lo, ?_, by omega, fun hc => absurd hends hc, fun hpe => ?_⟩
      · have hends' : s.lo < s.hi ∧ (tagsOf (s.goto s.hi))[s.hi - 1]? = some Tag.TK_PARENR := hends
        exact congrArg Except.ok (if_pos hends')
      · refine ⟨le_refl _, hpe, by show s.lo ≤ s.all.length; omega, h.tags, s.pos, le_refl _, ?_⟩
        show WellNested (tokSlice (tagsOf s) s.pos s.lo)
        rw [show s.pos = s.lo by omega, slice_nil]
        exact .nil
    · refine ⟨s.hi, ?_, le_refl _, fun _ => rfl, fun _ => ?_⟩
      · have hends' : ¬ (s.lo < s.hi ∧ (tagsOf (s.goto s.hi))[s.hi - 1]? = some Tag.TK_PARENR) := hends
        exact congrArg Except.ok (if_neg hends')
      · obtain ⟨base, hb, hw⟩ := h.nested
        exact ⟨le_refl _, hhi, hlen, h.tags, base, by show base ≤ s.pos; omega, hw⟩

include K in
theorem runDesignator_safe {s : Strm} (h : GoodStmt s) {p : P} (hg : p.good = true)
    (he : p.endsSeq = true) :
    Safe (Risk true s) (runDesignator f p s)
      (fun w => ∀ n, w.1 = some n → PostAt s s.pos w.1 w.2) := by
  obtain ⟨e, h1, h2, h3, h4⟩ := designatorEnd_good h
  have hlen := h.hi_len
  rw [runDesignator, h1]
  simp only [up_of_ok, PRes.ok_bind, Strm.goto_pos]
  by_cases hle : s.pos ≤ e
  · rw [Strm.mkRange, if_pos ⟨hle, by omega⟩]
    simp only [up_of_ok, PRes.ok_bind]
    have hsub := h4 hle
    have hE : Risk (p.calls u) (Strm.mk' s.all s.pos e) → Risk true s := by
      rintro ⟨hc, _⟩
      refine ⟨?_, rfl⟩
      by_contra hn
      have := h3 hn
      subst this
      apply hn
      refine ⟨?_, hc.2⟩
      have h5 : s.pos < s.hi := hc.1
      have := h.lo_pos
      omega
    have h5 : Safe (Risk true s) (f p (Strm.mk' s.all s.pos e)) (fun o =>
        PostAt (Strm.mk' s.all s.pos e) s.pos o.tree o.s ∧
          (∀ n, o.tree = some n → o.s.peek = .ok Tag.BAD)) :=
      ((K.safe p _ hg hsub).weaken hE).mono (fun o ho hq => ⟨hq, fun n hn => K.ends _ _ _ _ he ho hn⟩)
    refine h5.bind (fun o ho => ?_)
    obtain ⟨⟨q', hq, hle', hhi', htree⟩, hpk⟩ := ho
    intro n hn
    have hn : o.tree = some n := hn
    have hpk := hpk n hn
    have hhi' : q' ≤ e := hhi'
    have hqe : q' = e := by
      rw [hq] at hpk
      have hgs := GoodStmt_goto hsub (q := q') hle' hhi'
      rcases peek_good hgs with ⟨h6, _⟩ | ⟨t, _, _, h7, h8⟩
      · exact h6
      · rw [h7] at hpk
        injection hpk with hpk
        exact absurd hpk h8.2.1
    subst hqe
    refine ⟨q', rfl, hle, h2, ?_⟩
    exact htree
  · rw [Strm.mkRange, if_neg (by omega)]
    refine ⟨rfl, ?_, rfl⟩
    by_contra hn
    have := h3 hn
    have := h.pos_hi
    omega

theorem extLoop_safe {E : Prop} {s : Strm} (h : GoodStmt s) {tag : Int} : ∀ (es : List Ext),
    (∀ e ∈ es, ∃ t q, e s = .ok (t, q) ∧
      ∀ n, t = some n → s.pos ≤ q ∧ q ≤ s.hi ∧ Covers (tagsOf s) n s.pos q) →
    Safe E (up (extLoop tag s.pos es s)) (fun w => PostAt s s.pos w.1 w.2) := by
  intro es
  induction es with
  | nil => intro _; exact ⟨s.pos, rfl, le_refl _, h.pos_hi, rfl⟩
  | cons e es ih =>
    intro hx
    obtain ⟨t, q, he, ht⟩ := hx e (by simp)
    rw [extLoop, he, Res.ok_bind]
    cases t with
    | none =>
      simp only [Strm.goto_goto, Strm.goto_self]
      exact ih (fun e he => hx e (by simp [he]))
    | some n =>
      obtain ⟨h1, h2, h3⟩ := ht n rfl
      obtain ⟨ks', hk, hc⟩ := hoist_covers (t := tag) (r := n.range) h.tags (ks := []) (b := s.pos)
        (tree := some n) (by rw [CoversAll]) h3
      obtain ⟨r', he', hcv⟩ := cover_ok (t := tag) (r := n.range) hc
        (fun e => (rangeIs_empty (covers_range h3)).mpr e)
      simp only
      rw [hk, he', Res.ok_bind]
      exact ⟨q, rfl, h1, h2, hcv⟩

include K in
/-- A rule function: whatever tree it returns is one over the tokens taken. -/
theorem runBody_safe {x : Exts} (hx : GoodExts x) {s : Strm} (h : GoodStmt s) {b : Body} {k : Nat}
    (hg : b.good = true) :
    Safe (Risk (b.calls u) s) (runBody x f k b s) (fun w => ∀ n, w.1 = some n → PostAt s s.pos w.1 w.2) := by
  have any : ∀ {E : Prop} {r : PRes (Option SNode × Strm)},
      Safe E r (fun w => PostAt s s.pos w.1 w.2) →
      Safe E r (fun w => ∀ n, w.1 = some n → PostAt s s.pos w.1 w.2) :=
    fun h => h.mono (fun _ _ h _ _ => h)
  cases b with
  | comb p =>
    rw [runBody]
    exact Safe.bind (K.safe p s hg h) (fun o ho _ _ => ho)
  | expr tag real =>
    rw [Body.good] at hg
    simp only [Bool.and_eq_true] at hg
    exact any (runExpr_safe K h hg.1.2 hg.2)
  | parens => exact any (runParens_safe h)
  | listName => exact any (runListName_safe h)
  | procDesignator p =>
    rw [Body.good] at hg
    simp only [Bool.and_eq_true] at hg
    exact runDesignator_safe K h hg.1 hg.2
  | withExts a p =>
    rw [Body.good] at hg
    simp only [Bool.and_eq_true] at hg
    rw [runBody]
    have h1 : Safe (Risk (p.calls u) s) (f p s) (fun o => PostAt s s.pos o.tree o.s ∧ Restored s o) :=
      (K.safe p s hg.1 h).mono (fun o ho hq => ⟨hq, K.restores _ _ _ hg.2 ho⟩)
    refine h1.bind (fun o ho => ?_)
    by_cases hok : o.ok = true
    · rw [if_pos hok]; exact fun _ _ => ho.1
    · rw [if_neg hok, (ho.2 (by simpa using hok)).1, runExts]
      split
      · exact any (extLoop_safe h _ (fun e he => hx e (by simp [he]) s h))
      · exact any (extLoop_safe h _ (fun e he => hx e (by simp [he]) s h))

include K in
theorem step_safe {g : R → Body} {x : Exts} (hx : GoodExts x) (hgr : ∀ r, (g r).good = true)
    (hu : ∀ r, (g r).calls u = true → u r = true)
    {k : Nat} {p : P} {s : Strm} (hg : p.good = true) (h : GoodStmt s) :
    Safe (Risk (p.calls u) s) (step g x f k p s) (fun o => PostAt s s.pos o.tree o.s) := by
  cases p with
  | alts tag ps =>
    rw [P.good, Bool.and_eq_true] at hg
    rw [step]
    refine Safe.bind (altsLoop_safe K ps s hg.1 hg.2 h) (fun o ho => ?_)
    split
    · obtain ⟨q', hq, hle, hhi, htree⟩ := ho
      obtain ⟨ks', hk, hc⟩ := hoist_covers (t := tag) (r := none) h.tags (ks := []) (b := s.pos)
        (by rw [CoversAll]) htree
      obtain ⟨r', he, hcv⟩ := cover_ok (t := tag) (r := none) hc (fun _ => rfl)
      rw [hk, he]
      exact ⟨q', hq, hle, hhi, hcv⟩
    · exact ho
  | letter => exact runLetter_safe h
  | literal w => exact runLiteral_safe h
  | name => exact runName_safe h
  | neg p =>
    rw [P.good] at hg
    rw [step]
    exact Safe.bind (K.safe p s hg h) (fun o ho => ho)
  | opt p =>
    rw [P.good] at hg
    rw [step]
    exact Safe.bind (K.safe p s hg h) (fun o ho => ho)
  | peek t => exact runPeek_safe h
  | rule r =>
    rw [step]
    have h1 : Safe (Risk (u r) s) (runBody x f k (g r) s)
        (fun w => (∀ n, w.1 = some n → PostAt s s.pos w.1 w.2) ∧ (w.1 = none → Frame s w.2)) :=
      ((runBody_safe K hx h (hgr r)).weaken (fun e => ⟨e.1, hu r e.2⟩)).mono (fun w hw hq =>
        ⟨hq, fun _ => (runBody_adv (m := false) (by simp) K.adv hw).frame⟩)
    refine h1.bind (fun w hw => ?_)
    split
    · next hn =>
      refine ⟨s.pos, ?_, le_refl _, h.pos_hi, rfl⟩
      have := (hw.2 hn).eq_goto
      show w.2.goto s.pos = s.goto s.pos
      rw [this, Strm.goto_goto]
    · next n hn =>
      have := hw.1 n hn
      rw [hn] at this
      exact this
  | seq tag ps =>
    rw [P.good] at hg
    rw [step]
    have h1 := seqLoop_safe K h (b := s.pos) (t := Tag.UNKNOWN) (r := none) ps s.pos [] hg h.lo_pos
      h.pos_hi (by rw [CoversAll])
    rw [Strm.goto_self] at h1
    refine h1.bind (fun w hw => ?_)
    obtain ⟨q', ks', e1, e2, e3, e4, e5⟩ := hw
    split
    · obtain ⟨r', he, hcv⟩ := cover_ok (t := tag) (r := none) e5 (fun _ => rfl)
      rw [e1]
      simp only [SNode.range, SNode.kids]
      rw [he]
      exact ⟨q', e2, e3, e4, hcv⟩
    · refine ⟨s.pos, ?_, le_refl _, h.pos_hi, rfl⟩
      show w.2.2.goto s.pos = s.goto s.pos
      rw [e2, Strm.goto_goto]
  | star p =>
    rw [P.good] at hg
    rw [step]
    have h1 := starLoop_safe K h (b := s.pos) (t := Tag.HOIST) (r := none) hg k s.pos [] h.lo_pos
      h.pos_hi (by rw [CoversAll])
    rw [Strm.goto_self] at h1
    refine h1.bind (fun w hw => ?_)
    obtain ⟨q', ks', e1, e2, e3, e4, e5⟩ := hw
    obtain ⟨r', he, hcv⟩ := cover_ok (t := Tag.HOIST) (r := none) e5 (fun _ => rfl)
    rw [e1, he]
    exact ⟨q', e2, e3, e4, hcv⟩
  | tagIf tag p =>
    rw [P.good] at hg
    rw [step]
    refine Safe.bind (K.safe p s hg h) (fun o ho => ?_)
    split
    · next n hn =>
      obtain ⟨q', hq, hle, hhi, htree⟩ := ho
      rw [hn] at htree
      have htree : Covers (tagsOf s) n s.pos q' := htree
      obtain ⟨ks', hk, hc⟩ := hoist_covers (t := tag) (r := n.range) h.tags (ks := []) (b := s.pos)
        (tree := some n) (by rw [CoversAll]) htree
      obtain ⟨r', he, hcv⟩ := cover_ok (t := tag) (r := n.range) hc
        (fun e => (rangeIs_empty (covers_range htree)).mpr e)
      rw [hk, he]
      exact ⟨q', hq, hle, hhi, hcv⟩
    · exact ho
  | tok t =>
    rw [P.good] at hg
    exact runTok_safe h (by simpa using hg)

end main

theorem seqLoop_last {f : P → Strm → PRes Out} {t : Int}
    (hf : ∀ s o, f (.peek t) s = .ok o → o.ok = true → o.s = s ∧ s.peek = .ok t) :
    ∀ ps s acc w, ps.getLast? = some (.peek t) → seqLoop f ps s acc = .ok w → w.2.1 = true →
    w.2.2.peek = .ok t := by
  intro ps
  induction ps with
  | nil => intro s acc w h; cases h
  | cons p ps ih =>
    intro s acc w hl h hw
    rw [seqLoop] at h
    pbind h with o ho
    split at h
    · next hok =>
      cases ps with
      | nil =>
        simp only [List.getLast?_singleton, Option.some.injEq] at hl
        subst hl
        rw [seqLoop] at h
        injection h with h; subst h
        obtain ⟨e1, e2⟩ := hf _ _ ho hok
        show o.s.peek = _
        rw [e1]; exact e2
      | cons q ps => exact ih _ _ _ (by simpa using hl) h hw
    · injection h with h; subst h
      cases hw

theorem eval_ends (g : R → Body) (x : Exts) {n : Nat} {p : P} {s : Strm} {o : Out} {nd : SNode}
    (hp : p.endsSeq = true) (h : eval g x n p s = .ok o) (ho : o.tree = some nd) :
    o.s.peek = .ok Tag.BAD := by
  cases n with
  | zero => cases h
  | succ n =>
  match p, hp with
  | .seq tag ps, hp =>
    rw [eval, step] at h
    pbind h with w hw
    have hl : ps.getLast? = some (.peek Tag.BAD) := by
      rw [P.endsSeq] at hp
      split at hp
      · next t hl => rw [hl]; simp at hp; rw [hp]
      · cases hp
    split at h
    · next hok =>
      pbind h with c hc
      injection h with h; subst h
      refine seqLoop_last (t := Tag.BAD) ?_ ps s _ w hl hw hok
      intro s o ho hk
      cases n with
      | zero => cases ho
      | succ n =>
        rw [eval, step] at ho
        have ho := up_ok ho
        rw [runPeek] at ho
        rbind ho with u hu
        injection ho with ho; subst ho
        exact ⟨rfl, by rw [hu, show Tag.BAD = u by simpa using hk]⟩
    · injection h with h; subst h
      cases ho

/-- On a good statement every parser either runs out of calls, or hits undefined behaviour in a
statement that ends in ')', or returns a tree over exactly the tokens it took. -/
theorem eval_safe {u : R → Bool} {g : R → Body} {x : Exts} (hx : GoodExts x)
    (hgr : ∀ r, (g r).good = true) (hu : ∀ r, (g r).calls u = true → u r = true) :
    ∀ n, Known u (eval g x n) := by
  intro n
  induction n with
  | zero =>
    exact ⟨fun _ _ _ _ => trivial, (fun _ _ _ h => by cases h), (fun _ _ _ _ h => by cases h),
      (fun _ _ _ _ _ h => by cases h), (fun _ _ _ _ _ h => by cases h)⟩
  | succ n ih =>
    exact ⟨fun p s hg h => step_safe ih hx hgr hu hg h, eval_adv (by simp) _,
      fun p s o => eval_restores g x _ p s o, fun p s o h1 h2 h3 => eval_real g x h1 h2 h3,
      fun p s o nd h1 h2 h3 => eval_ends g x h1 h2 h3⟩

end SP
end FLPR
