import Verif.StmtParser.HeadSpec
import Verif.StmtParser.DesigMain
import Verif.Apps.ModuleCall
/-!
# Lemmas for C84: statements that end in a statement of another kind
-/

namespace FLPR
namespace SP
open Spec

theorem run_seqs_cons {F : PForm} {Fs : List PForm} {ts : List Tok} :
    (PForm.seqs (F :: Fs)).run ts = (F.run ts).bind (PForm.seqs Fs).run := rfl

/-- Where a sequence is after its leading members, all of which have forms. -/
theorem headed_loop {x : Exts} (hx : GoodExts x) {n : Nat} {r2 : R} : ∀ (hd : List P) (Fs : List PForm) (s : Strm) (acc : SNode),
    formsOf (toForm 40) hd = some Fs → P.goodAll hd = true → P.callsAny (fun r => R.designates.contains r) hd = false → GoodStmt s →
    (∀ w, seqLoop (eval R.body x n) (hd ++ [.rule r2, .peek Tag.BAD]) s acc = .ok w →
      ((PForm.seqs Fs).run (restOf s) = none ∧ w.2.1 = false) ∨
      ∃ i, s.pos ≤ i ∧ i ≤ s.hi ∧ (PForm.seqs Fs).run (restOf s) = some (restOf (s.goto i)) ∧
        ∃ o, eval R.body x n (.rule r2) (s.goto i) = .ok o ∧ (w.2.1 = true ↔ o.ok = true ∧ restOf o.s = [])) ∧
    (seqLoop (eval R.body x n) (hd ++ [.rule r2, .peek Tag.BAD]) s acc = .error (.fail .ub) →
      ∃ i, s.pos ≤ i ∧ i ≤ s.hi ∧ (PForm.seqs Fs).run (restOf s) = some (restOf (s.goto i)) ∧
        eval R.body x n (.rule r2) (s.goto i) = .error (.fail .ub)) := by
  have K := eval_safe (u := fun r => R.designates.contains r) hx grammar_good grammar_calls n
  intro hd
  induction hd with
  | nil =>
    intro Fs s acc hF _ _ hs
    injection hF with hF
    subst hF
    have hself : s.goto s.pos = s := rfl
    have post : ∀ o, eval R.body x n (.rule r2) s = .ok o → ∃ q, s.pos ≤ q ∧ q ≤ s.hi ∧ o.s = s.goto q := by
      intro o ho
      have := K.safe (.rule r2) s rfl hs
      rw [ho] at this
      obtain ⟨q, h1, h2, h3, _⟩ := this
      exact ⟨q, h2, h3, h1⟩
    have pk : ∀ q, s.pos ≤ q → q ≤ s.hi → ∀ o, eval R.body x n (.peek Tag.BAD) (s.goto q) = .ok o →
        (o.ok = true ↔ restOf (s.goto q) = []) := by
      intro q h1 h2 o ho
      have hg := goto_good hs h1 h2
      have hl := restOf_length hg
      cases n with
      | zero => cases ho
      | succ n =>
        rw [eval, step, runPeek] at ho
        have ho := up_ok ho
        rcases peek_good hg with ⟨h3, h4⟩ | ⟨t, h3, _, h4, h5⟩
        · rw [h4] at ho
          injection ho with ho
          subst ho
          have h3 : q = s.hi := h3
          have hl : (restOf (s.goto q)).length = s.hi - q := hl
          exact ⟨fun _ => List.length_eq_zero_iff.mp (by omega), fun _ => by simp⟩
        · rw [h4] at ho
          injection ho with ho
          subst ho
          have h3 : q < s.hi := h3
          have hl : (restOf (s.goto q)).length = s.hi - q := hl
          constructor
          · intro h
            have h : Tag.BAD = t := by simpa using h
            exact absurd h.symm h5.2.1
          · intro h
            rw [h] at hl
            simp at hl
            omega
    have pkub : ∀ q, s.pos ≤ q → q ≤ s.hi → eval R.body x n (.peek Tag.BAD) (s.goto q) ≠ .error (.fail .ub) := by
      intro q h1 h2 ho
      have hg := goto_good hs h1 h2
      have := K.safe (.peek Tag.BAD) _ rfl hg
      rw [ho] at this
      exact absurd this.2.2 (by decide)
    constructor
    · intro w h
      right
      refine ⟨s.pos, le_refl _, hs.pos_hi, rfl, ?_⟩
      rw [List.nil_append, seqLoop] at h
      pbind h with o ho
      refine ⟨o, ho, ?_⟩
      obtain ⟨q, h1, h2, h3⟩ := post o ho
      by_cases hk : o.ok = true
      · rw [if_pos hk, seqLoop] at h
        pbind h with o2 ho2
        rw [h3] at ho2 ⊢
        rw [← pk q h1 h2 o2 ho2]
        by_cases hk2 : o2.ok = true
        · rw [if_pos hk2, seqLoop] at h
          injection h with h
          subst h
          simp [hk, hk2]
        · rw [if_neg hk2] at h
          injection h with h
          subst h
          simp [hk2]
      · rw [if_neg hk] at h
        injection h with h
        subst h
        simp [hk]
    · intro h
      refine ⟨s.pos, le_refl _, hs.pos_hi, rfl, ?_⟩
      rw [List.nil_append, seqLoop] at h
      rcases bind_ub h with h | ⟨o, ho, h⟩
      · exact h
      · exfalso
        obtain ⟨q, h1, h2, h3⟩ := post o ho
        by_cases hk : o.ok = true
        · rw [if_pos hk, seqLoop] at h
          rcases bind_ub h with h | ⟨o2, ho2, h⟩
          · rw [h3] at h
            exact pkub q h1 h2 h
          · by_cases hk2 : o2.ok = true
            · rw [if_pos hk2, seqLoop] at h; cases h
            · rw [if_neg hk2] at h; cases h
        · rw [if_neg hk] at h; cases h
  | cons p hd ih =>
    intro Fs s acc hF hg hc hs
    rw [formsOf] at hF
    rw [P.goodAll, Bool.and_eq_true] at hg
    rw [P.callsAny, Bool.or_eq_false_iff] at hc
    cases hp : toForm 40 p with
    | none => rw [hp] at hF; cases hF
    | some F =>
      rw [hp, Option.bind_some] at hF
      cases hq : formsOf (toForm 40) hd with
      | none => rw [hq] at hF; cases hF
      | some Fs' =>
        rw [hq] at hF
        injection hF with hF
        subst hF
        rw [run_seqs_cons]
        constructor
        · intro w h
          rw [List.cons_append, seqLoop] at h
          pbind h with o ho
          have ha := eval_run x n 40 p F s o hp hs ho
          by_cases hk : o.ok = true
          · rw [if_pos hk] at h
            obtain ⟨q, h1, h2, h3, h4⟩ := agrees_some ha hk
            rw [h1] at h
            have := (ih Fs' (s.goto q) _ hq hg.2 hc.2 (goto_good hs h2 h3)).1 w h
            rw [h4, Option.bind_some]
            rcases this with this | ⟨i, g1, g2, g3⟩
            · exact .inl this
            · have g1 : q ≤ i := g1
              exact .inr ⟨i, by omega, g2, g3⟩
          · rw [if_neg hk] at h
            injection h with h
            subst h
            rw [(agrees_none ha (by simpa using hk)).1]
            exact .inl ⟨rfl, rfl⟩
        · intro h
          rw [List.cons_append, seqLoop] at h
          rcases bind_ub h with h | ⟨o, ho, h⟩
          · have := K.safe p s hg.1 hs
            rw [h] at this
            rw [hc.1] at this
            cases this.2.2
          · have ha := eval_run x n 40 p F s o hp hs ho
            by_cases hk : o.ok = true
            · rw [if_pos hk] at h
              obtain ⟨q, h1, h2, h3, h4⟩ := agrees_some ha hk
              rw [h1] at h
              rw [h4, Option.bind_some]
              obtain ⟨i, g1, g2, g3⟩ := (ih Fs' (s.goto q) _ hq hg.2 hc.2 (goto_good hs h2 h3)).2 h
              have g1 : q ≤ i := g1
              exact ⟨i, by omega, g2, g3⟩
            · rw [if_neg hk] at h; cases h

/-- A rule as a member of a sequence, and the rule function called by itself. -/
theorem rule_call {x : Exts} {n : Nat} {r : R} {s : Strm} {o : Out} (h : eval R.body x n (.rule r) s = .ok o) :
    (∃ t, o.ok = true ∧ Returns x r s (.ok (some t, o.s))) ∨ (o.ok = false ∧ ∃ q, Returns x r s (.ok (none, q))) := by
  cases n with
  | zero => cases h
  | succ n =>
    rw [eval, step] at h
    pbind h with w hw
    obtain ⟨w1, w2⟩ := w
    cases w1 with
    | none => injection h with h; subst h; exact .inr ⟨rfl, w2, .of_eval n hw⟩
    | some t => injection h with h; subst h; exact .inl ⟨t, rfl, .of_eval n hw⟩

theorem rule_call_ub {x : Exts} {n : Nat} {r : R} {s : Strm} (h : eval R.body x n (.rule r) s = .error (.fail .ub)) :
    Returns x r s (.error .ub) := by
  cases n with
  | zero => cases h
  | succ n =>
    rw [eval, step] at h
    rcases bind_ub h with h | ⟨w, hw, h⟩
    · exact .of_eval n h
    · obtain ⟨w1, w2⟩ := w
      cases w1 <;> cases h

/-- What a rule that is a sequence returns, from what the loop over the members does. -/
theorem seq_result {x : Exts} (hx : GoodExts x) {r : R} {tag : Int} {ps : List P} (hb : R.body r = .comb (.seq tag ps)) {s : Strm}
    (hs : GoodStmt s) {res : Res (Option SNode × Strm)} (h : Returns x r s res) :
    ∃ n, (∃ w, seqLoop (eval R.body x n) ps s (.node Tag.UNKNOWN none []) = .ok w ∧ ((∃ t q, res = .ok (some t, q)) ↔ w.2.1 = true) ∧
        res ≠ .error .ub) ∨
      (seqLoop (eval R.body x n) ps s (.node Tag.UNKNOWN none []) = .error (.fail .ub) ∧ res = .error .ub) := by
  have honly := C55_only_ub x hx r s hs res h
  obtain ⟨n, h⟩ := h.eval
  rw [evalRule, hb, runBody] at h
  cases n with
  | zero =>
    cases res with
    | ok w => cases h
    | error e => cases h
  | succ n =>
    refine ⟨n, ?_⟩
    rw [eval, step] at h
    have hgood := grammar_good r
    rw [hb] at hgood
    have hgood : P.goodAll ps = true := by simpa [Body.good, P.good] using hgood
    have K := eval_safe (u := fun r => R.designates.contains r) hx grammar_good grammar_calls n
    have hsafe := seqLoop_safe K hs (b := s.pos) (t := Tag.UNKNOWN) (r := none) ps s.pos [] hgood hs.lo_pos hs.pos_hi (by rw [CoversAll])
    rw [Strm.goto_self] at hsafe
    cases hw : seqLoop (eval R.body x n) ps s (.node Tag.UNKNOWN none []) with
    | ok w =>
      left
      refine ⟨w, rfl, ?_⟩
      rw [hw] at hsafe h
      obtain ⟨q', ks', e1, e2, e3, e4, e5⟩ := hsafe
      obtain ⟨r', he, _⟩ := cover_ok (t := tag) (r := none) e5 (fun _ => rfl)
      by_cases hk : w.2.1 = true
      · have h : up res = .ok (some (.node tag r' ks'), w.2.2) := by
          rw [← h]
          show _ = (_ : PRes _)
          simp only [PRes.ok_bind, if_pos hk, e1, SNode.range, SNode.kids, he, up]
        have h := up_ok h
        rw [h]
        exact ⟨⟨fun _ => hk, fun _ => ⟨_, _, rfl⟩⟩, fun h => by cases h⟩
      · have h : up res = .ok (none, w.2.2.goto s.pos) := by
          rw [← h]
          simp only [PRes.ok_bind, if_neg hk]
        have h := up_ok h
        rw [h]
        exact ⟨⟨(fun ⟨_, _, h⟩ => by cases h), fun h => absurd h hk⟩, fun h => by cases h⟩
    | error e =>
      right
      rw [hw] at hsafe h
      cases e with
      | fuel => cases res <;> cases h
      | fail e =>
        obtain ⟨rfl, _⟩ := hsafe
        exact ⟨rfl, up_ub h.symm⟩

/-- A statement that is a head with a form and a statement of another kind behind it. -/
theorem headed {x : Exts} (hx : GoodExts x) (hf : x.Forward) {r r2 : R} {tag : Int} {hd : List P} {Fs : List PForm} {H : Form}
    (hb : R.body r = .comb (.seq tag (hd ++ [.rule r2, .peek Tag.BAD]))) (hF : formsOf (toForm 40) hd = some Fs)
    (hg : P.goodAll hd = true) (hc : P.callsAny (fun r => R.designates.contains r) hd = false)
    (hH : sameForm (PForm.seqs Fs).erase H = true) (hT : chk [] ⟨3, true⟩ 60 (PForm.seqs Fs) [.any] = true)
    {s : Strm} (hs : GoodStmt s) :
    ((∃ t q, Returns x r s (.ok (some t, q))) ↔ ∃ w i, s.pos ≤ i ∧ i ≤ s.hi ∧ restOf s = w ++ restOf (s.goto i) ∧ H.Is w ∧
      ∃ t q, Returns x r2 (s.goto i) (.ok (some t, q)) ∧ restOf q = []) ∧
    (Returns x r s (.error .ub) ↔ ∃ w i, s.pos ≤ i ∧ i ≤ s.hi ∧ restOf s = w ++ restOf (s.goto i) ∧ H.Is w ∧
      Returns x r2 (s.goto i) (.error .ub)) := by
  have hlo := hs.lo_pos
  have take : ∀ {w u}, restOf s = w ++ u → H.Is w → (PForm.seqs Fs).run (restOf s) = some u := by
    intro w u e h
    have hb := good_noBad hs
    rw [e] at hb ⊢
    exact (chk_sound (ex := []) ⟨3, true⟩ 60).1 _ [.any] hT w [] u hb ((eraseBut_nil _ _).mpr ((sameForm_is hH w).mpr h)) any_shas
  have untake : ∀ {u}, (PForm.seqs Fs).run (restOf s) = some u → ∃ w, restOf s = w ++ u ∧ H.Is w := by
    intro u h
    obtain ⟨w, h1, h2⟩ := run_sound _ _ _ (good_nested hs) h
    exact ⟨w, h1, (sameForm_is hH w).mp h2⟩
  obtain ⟨res, hres, huniq⟩ := C52_terminates x hf r s
  obtain ⟨n, hn⟩ := seq_result hx hb hs hres
  have hl := headed_loop hx (n := n) (r2 := r2) hd Fs s (.node Tag.UNKNOWN none []) hF hg hc hs
  have uniq2 : ∀ {i i' : Nat}, s.pos ≤ i → i ≤ s.hi → s.pos ≤ i' → i' ≤ s.hi →
      (PForm.seqs Fs).run (restOf s) = some (restOf (s.goto i)) → (PForm.seqs Fs).run (restOf s) = some (restOf (s.goto i')) → i = i' := by
    intro i i' h1 h2 h3 h4 h5 h6
    rw [h5] at h6
    injection h6 with h6
    exact rest_pos hs (by omega) h2 (by omega) h4 h6
  constructor
  · constructor
    · rintro ⟨t, q, h⟩
      have := huniq _ h
      subst this
      rcases hn with ⟨w, hw, h1, _⟩ | ⟨_, h1⟩
      · have hk := h1.mp ⟨t, q, rfl⟩
        rcases hl.1 w hw with ⟨_, h2⟩ | ⟨i, g1, g2, g3, o, g4, g5⟩
        · rw [hk] at h2; cases h2
        · obtain ⟨u, g6, g7⟩ := untake g3
          obtain ⟨g8, g9⟩ := g5.mp hk
          rcases rule_call g4 with ⟨t2, _, g10⟩ | ⟨g10, _⟩
          · exact ⟨u, i, g1, g2, g6, g7, t2, o.s, g10, g9⟩
          · rw [g8] at g10; cases g10
      · cases h1
    · rintro ⟨w, i, h1, h2, h3, h4, t, q, h5, h6⟩
      have hrun := take h3 h4
      rcases hn with ⟨w', hw, h7, _⟩ | ⟨hw, h7⟩
      · rcases hl.1 w' hw with ⟨h8, _⟩ | ⟨i', g1, g2, g3, o, g4, g5⟩
        · rw [hrun] at h8; cases h8
        · have := uniq2 h1 h2 g1 g2 hrun g3
          subst this
          have hok : o.ok = true ∧ restOf o.s = [] := by
            rcases rule_call g4 with ⟨t2, g9, g10⟩ | ⟨g9, q2, g10⟩
            · have e := h5.unique g10
              injection e with e
              injection e with _ e
              rw [e] at h6
              exact ⟨g9, h6⟩
            · have e := h5.unique g10
              injection e with e
              injection e with e
              cases e
          obtain ⟨t', q', e⟩ := h7.mpr (g5.mpr hok)
          subst e
          exact ⟨t', q', hres⟩
      · obtain ⟨i', g1, g2, g3, g4⟩ := hl.2 hw
        have := uniq2 h1 h2 g1 g2 hrun g3
        subst this
        have e := h5.unique (rule_call_ub g4)
        cases e
  · constructor
    · intro h
      have := huniq _ h
      subst this
      rcases hn with ⟨w, hw, _, h1⟩ | ⟨hw, _⟩
      · exact absurd rfl h1
      · obtain ⟨i, g1, g2, g3, g4⟩ := hl.2 hw
        obtain ⟨u, g6, g7⟩ := untake g3
        exact ⟨u, i, g1, g2, g6, g7, rule_call_ub g4⟩
    · rintro ⟨w, i, h1, h2, h3, h4, h5⟩
      have hrun := take h3 h4
      rcases hn with ⟨w', hw, h7, _⟩ | ⟨hw, h7⟩
      · exfalso
        rcases hl.1 w' hw with ⟨h8, _⟩ | ⟨i', g1, g2, g3, o, g4, g5⟩
        · rw [hrun] at h8; cases h8
        · have := uniq2 h1 h2 g1 g2 hrun g3
          subst this
          rcases rule_call g4 with ⟨t2, _, g10⟩ | ⟨_, q2, g10⟩
          · cases h5.unique g10
          · cases h5.unique g10
      · subst h7
        exact hres

/-! ### Alternatives, in order -/

theorem firstOf_excl {α : Type} {no yes ub : α → Prop} (h1 : ∀ a, no a → yes a → False) (h2 : ∀ a, no a → ub a → False)
    (h3 : ∀ a, yes a → ub a → False) : ∀ as, FirstOf no yes as → FirstOf no ub as → False
  | [], h, _ => h
  | a :: as, h, h' => by
    rcases h with h | ⟨h, g⟩ <;> rcases h' with h' | ⟨h', g'⟩
    · exact h3 a h h'
    · exact h1 a h' h
    · exact h2 a h h'
    · exact firstOf_excl h1 h2 h3 as g g'

theorem firstOf_all {α : Type} {no yes : α → Prop} (h1 : ∀ a, no a → yes a → False) : ∀ as, FirstOf no yes as → (∀ a ∈ as, no a) → False
  | [], h, _ => h
  | a :: as, h, h' => by
    rcases h with h | ⟨_, g⟩
    · exact h1 a (h' a (by simp)) h
    · exact firstOf_all h1 as g (fun b hb => h' b (by simp [hb]))

theorem firstOf_map {α β : Type} {f : α → β} {no yes : β → Prop} : ∀ as : List α,
    FirstOf no yes (as.map f) ↔ FirstOf (fun a => no (f a)) (fun a => yes (f a)) as
  | [] => Iff.rfl
  | a :: as => by rw [List.map_cons, FirstOf, FirstOf, firstOf_map as]

theorem firstOf_congr {α : Type} {no yes no' yes' : α → Prop} : ∀ as : List α, (∀ a ∈ as, (no a ↔ no' a) ∧ (yes a ↔ yes' a)) →
    (FirstOf no yes as ↔ FirstOf no' yes' as)
  | [], _ => Iff.rfl
  | a :: as, h => by
    rw [FirstOf, FirstOf, firstOf_congr as (fun b hb => h b (by simp [hb])), (h a (by simp)).1, (h a (by simp)).2]

/-- The rule function returns no tree. -/
def NoR (x : Exts) (s : Strm) (r : R) : Prop := ∃ q, Returns x r s (.ok (none, q))
/-- The rule function returns a tree. -/
def YesR (x : Exts) (s : Strm) (r : R) : Prop := ∃ t q, Returns x r s (.ok (some t, q))
/-- The rule function has undefined behaviour. -/
def UbR (x : Exts) (s : Strm) (r : R) : Prop := Returns x r s (.error .ub)

theorem altsLoop_first {x : Exts} {n : Nat} : ∀ (rs : List R) (s : Strm),
    (∀ o, altsLoop (eval R.body x n) (rs.map .rule) s = .ok o →
      (o.ok = true ∧ FirstOf (NoR x s) (YesR x s) rs) ∨ (o.ok = false ∧ o.tree = none ∧ ∀ r ∈ rs, NoR x s r)) ∧
    (altsLoop (eval R.body x n) (rs.map .rule) s = .error (.fail .ub) → FirstOf (NoR x s) (UbR x s) rs)
  | [], s => by
    constructor
    · intro o h
      rw [List.map_nil, altsLoop] at h
      injection h with h
      subst h
      exact .inr ⟨rfl, rfl, (fun r hr => by cases hr)⟩
    · intro h
      rw [List.map_nil, altsLoop] at h
      cases h
  | r0 :: rs, s => by
    obtain ⟨ih1, ih2⟩ := altsLoop_first (x := x) (n := n) rs s
    constructor
    · intro o h
      rw [List.map_cons, altsLoop] at h
      pbind h with o1 h1
      rcases rule_call h1 with ⟨t, hk, ht⟩ | ⟨hk, hno⟩
      · rw [if_pos hk] at h
        injection h with h
        subst h
        exact .inl ⟨hk, .inl ⟨t, _, ht⟩⟩
      · rw [if_neg (by rw [hk]; simp), (eval_restores R.body x n _ s o1 rfl h1 hk).1] at h
        rcases ih1 o h with ⟨g1, g2⟩ | ⟨g1, g2, g3⟩
        · exact .inl ⟨g1, .inr ⟨hno, g2⟩⟩
        · refine .inr ⟨g1, g2, fun r hr => ?_⟩
          rcases List.mem_cons.mp hr with rfl | hr
          · exact hno
          · exact g3 r hr
    · intro h
      rw [List.map_cons, altsLoop] at h
      rcases bind_ub h with h | ⟨o1, h1, h⟩
      · exact .inl (rule_call_ub h)
      · rcases rule_call h1 with ⟨t, hk, ht⟩ | ⟨hk, hno⟩
        · rw [if_pos hk] at h; cases h
        · rw [if_neg (by rw [hk]; simp), (eval_restores R.body x n _ s o1 rfl h1 hk).1] at h
          exact .inr ⟨hno, ih2 h⟩

theorem alts_first {x : Exts} (hx : GoodExts x) {n : Nat} {tag : Int} {rs : List R} (hgood : (P.alts tag (rs.map .rule)).good = true) {s : Strm} (hs : GoodStmt s) :
    (∀ o, eval R.body x n (.alts tag (rs.map .rule)) s = .ok o →
      (o.ok = true ∧ o.tree.isSome = true ∧ FirstOf (NoR x s) (YesR x s) rs) ∨ (o.ok = false ∧ o.tree = none ∧ ∀ r ∈ rs, NoR x s r)) ∧
    (eval R.body x n (.alts tag (rs.map .rule)) s = .error (.fail .ub) → FirstOf (NoR x s) (UbR x s) rs) := by
  cases n with
  | zero => exact ⟨(fun o h => by cases h), (fun h => by cases h)⟩
  | succ n =>
    obtain ⟨h1, h2⟩ := altsLoop_first (x := x) (n := n) rs s
    rw [eval, step]
    constructor
    · intro o h
      pbind h with o1 ho1
      rcases h1 o1 ho1 with ⟨g1, g2⟩ | ⟨g1, g2, g3⟩
      · rw [if_pos g1] at h
        pbind h with c hc
        injection h with h
        subst h
        exact .inl ⟨rfl, rfl, g2⟩
      · rw [if_neg (by rw [g1]; simp)] at h
        injection h with h
        subst h
        exact .inr ⟨g1, g2, g3⟩
    · intro h
      rcases bind_ub h with h | ⟨o1, ho1, h⟩
      · exact h2 h
      · exfalso
        rw [P.good, Bool.and_eq_true] at hgood
        have K := eval_safe (u := fun r => R.designates.contains r) hx grammar_good grammar_calls n
        have hsafe := altsLoop_safe K _ s hgood.1 hgood.2 hs
        rw [ho1] at hsafe
        obtain ⟨q', hq, hle, hhi, htree⟩ := hsafe
        obtain ⟨ks', hk, hc⟩ := hoist_covers (t := tag) (r := none) hs.tags (ks := []) (b := s.pos) (by rw [CoversAll]) htree
        obtain ⟨r', he, hcv⟩ := cover_ok (t := tag) (r := none) hc (fun _ => rfl)
        by_cases hk1 : o1.ok = true
        · rw [if_pos hk1, hk, he] at h; cases h
        · rw [if_neg hk1] at h; cases h

/-- A rule that is a choice of rules, without extensions. -/
theorem choice {r : R} {tag : Int} {rs : List R}
    (hb : R.body r = .comb (.alts tag (rs.map .rule)) ∨ R.body r = .withExts true (.alts tag (rs.map .rule)))
    {s : Strm} (hs : GoodStmt s) :
    (YesR noExts s r ↔ FirstOf (NoR noExts s) (YesR noExts s) rs) ∧ (UbR noExts s r ↔ FirstOf (NoR noExts s) (UbR noExts s) rs) := by
  have hgood : (P.alts tag (rs.map .rule)).good = true := by
    have := grammar_good r
    rcases hb with hb | hb
    · rw [hb] at this; exact this
    · rw [hb, Body.good, Bool.and_eq_true] at this; exact this.1
  have ny : ∀ a, NoR noExts s a → YesR noExts s a → False := by
    rintro a ⟨q, h⟩ ⟨t, q', h'⟩
    have e := h.unique h'
    injection e with e
    injection e with e
    cases e
  have nu : ∀ a, NoR noExts s a → UbR noExts s a → False := fun a ⟨q, h⟩ h' => by cases h.unique h'
  have yu : ∀ a, YesR noExts s a → UbR noExts s a → False := fun a ⟨_, q, h⟩ h' => by cases h.unique h'
  obtain ⟨res, hres, huniq⟩ := C52_terminates noExts forward_none r s
  have key : (YesR noExts s r ∧ FirstOf (NoR noExts s) (YesR noExts s) rs) ∨ (NoR noExts s r ∧ ∀ a ∈ rs, NoR noExts s a) ∨
      (UbR noExts s r ∧ FirstOf (NoR noExts s) (UbR noExts s) rs) := by
    have honly := C55_only_ub noExts goodExts_none r s hs res hres
    obtain ⟨n, hn⟩ := hres.eval
    obtain ⟨a1, a2⟩ := alts_first goodExts_none (n := n) hgood hs
    rcases honly with ⟨⟨t, q⟩, rfl⟩ | ⟨rfl, _⟩
    · rcases hb with hb | hb
      · rw [evalRule, hb, runBody] at hn
        pbind hn with o ho
        injection hn with hn
        injection hn with e1 e2
        rcases a1 o ho with ⟨_, g1, g2⟩ | ⟨_, g1, g2⟩
        · rw [e1] at g1
          cases t with
          | none => cases g1
          | some t => exact .inl ⟨⟨t, q, hres⟩, g2⟩
        · rw [e1] at g1
          subst g1
          exact .inr (.inl ⟨⟨q, hres⟩, g2⟩)
      · rw [evalRule, hb, runBody] at hn
        pbind hn with o ho
        rcases a1 o ho with ⟨hk, g1, g2⟩ | ⟨hk, g1, g2⟩
        · rw [if_pos hk] at hn
          injection hn with hn
          injection hn with e1 e2
          rw [e1] at g1
          cases t with
          | none => cases g1
          | some t => exact .inl ⟨⟨t, q, hres⟩, g2⟩
        · rw [if_neg (by rw [hk]; simp)] at hn
          injection hn with hn
          injection hn with e1 e2
          subst e1
          exact .inr (.inl ⟨⟨q, hres⟩, g2⟩)
    · refine .inr (.inr ⟨hres, a2 ?_⟩)
      rcases hb with hb | hb
      · rw [evalRule, hb, runBody] at hn
        rcases bind_ub hn with h | ⟨o, ho, h⟩
        · exact h
        · cases h
      · rw [evalRule, hb, runBody] at hn
        rcases bind_ub hn with h | ⟨o, ho, h⟩
        · exact h
        · by_cases hk : o.ok = true
          · rw [if_pos hk] at h; cases h
          · rw [if_neg hk] at h; cases h
  rcases key with ⟨k1, k2⟩ | ⟨k1, k2⟩ | ⟨k1, k2⟩
  · exact ⟨⟨fun _ => k2, fun _ => k1⟩, ⟨fun h => (yu _ k1 h).elim, fun h => (firstOf_excl ny nu yu _ k2 h).elim⟩⟩
  · exact ⟨⟨fun h => (ny _ k1 h).elim, fun h => (firstOf_all ny _ h k2).elim⟩, ⟨fun h => (nu _ k1 h).elim, fun h => (firstOf_all nu _ h k2).elim⟩⟩
  · exact ⟨⟨fun h => (yu _ h k1).elim, fun h => (firstOf_excl ny nu yu _ h k2).elim⟩, ⟨fun _ => k2, fun _ => k1⟩⟩

/-! ### Nothing left, behind a `)` -/

/-- The parser never returns anything. -/
def Halts (x : Exts) (p : P) (s : Strm) : Prop := ∀ n o, eval R.body x n p s ≠ .ok o

theorem halts_first {x : Exts} {r : R} {tag : Int} {p : P} {ps : List P}
    (hb : R.body r = .comb (.seq tag (p :: ps)) ∨ R.body r = .comb (.alts tag (p :: ps))) {s : Strm} (h : Halts x p s) : Halts x (.rule r) s := by
  intro n o ho
  cases n with
  | zero => cases ho
  | succ n =>
    rw [eval, step] at ho
    pbind ho with a ha
    rcases hb with hb | hb <;> rw [hb, runBody] at ha <;> pbind ha with b hb <;> cases n with
    | zero => cases hb
    | succ n =>
      rw [eval, step] at hb
      pbind hb with c hc
      first
      | rw [seqLoop] at hc
      | rw [altsLoop] at hc
      pbind hc with d hd
      exact h n d hd

theorem halts_assignment {x : Exts} {s : Strm} (h : GoodStmt s) (he : EndsInParen s) (hr : restOf s = []) : Halts x (.rule .assignment_stmt) s := by
  refine halts_first (p := .rule .«variable») (.inl rfl) ?_
  refine halts_first (p := .rule .function_reference) (.inr rfl) ?_
  refine halts_first (p := .rule .procedure_designator) (.inl rfl) ?_
  intro n o ho
  cases n with
  | zero => cases ho
  | succ n =>
    obtain ⟨e, hd, hlt⟩ := designatorEnd_back h he
    have hl := restOf_length h
    rw [hr] at hl
    simp at hl
    rw [eval, step, show R.body .procedure_designator = .procDesignator designatorP from rfl, runBody, runDesignator, hd] at ho
    simp only [up_of_ok, PRes.ok_bind, Strm.goto_pos] at ho
    rw [Strm.mkRange, if_neg (by omega)] at ho
    cases ho

theorem halts_ub {x : Exts} (hx : GoodExts x) (hf : x.Forward) {r : R} {s : Strm} (hs : GoodStmt s) (h : Halts x (.rule r) s) : UbR x s r := by
  obtain ⟨res, hres, _⟩ := C52_terminates x hf r s
  rcases C55_only_ub x hx r s hs res hres with ⟨⟨t, q⟩, rfl⟩ | ⟨rfl, _⟩
  · exfalso
    obtain ⟨n, hn⟩ := hres.eval
    cases t with
    | none =>
      refine h (n + 1) ⟨none, false, q.goto s.pos⟩ ?_
      rw [eval, step]
      rw [evalRule] at hn
      rw [hn]
      rfl
    | some t =>
      refine h (n + 1) ⟨some t, true, q⟩ ?_
      rw [eval, step]
      rw [evalRule] at hn
      rw [hn]
      rfl
  · exact hres

/-- A statement that begins with a keyword is not recognised where nothing is left. -/
theorem no_at_end {x : Exts} (hx : GoodExts x) (hf : x.Forward) {r : R} {tag kw : Int} {ps : List P} (hb : R.body r = .comb (.seq tag (.tok kw :: ps)))
    (hkw : toForm 1 (.tok kw) = some (.tok kw)) {s : Strm} (hs : GoodStmt s) (hr : restOf s = []) : NoR x s r := by
  obtain ⟨res, hres, _⟩ := C52_terminates x hf r s
  obtain ⟨n, hn⟩ := seq_result hx hb hs hres
  have hfalse : ∀ o, eval R.body x n (.tok kw) s = .ok o → o.ok = false := by
    intro o ho
    have := eval_run x n 1 (.tok kw) (.tok kw) s o hkw hs ho
    rw [hr] at this
    exact this.1
  rcases hn with ⟨w, hw, h1, h2⟩ | ⟨hw, rfl⟩
  · rw [seqLoop] at hw
    pbind hw with o ho
    rw [if_neg (by rw [hfalse o ho]; simp)] at hw
    injection hw with hw
    rcases C55_only_ub x hx r s hs res hres with ⟨⟨t, q⟩, rfl⟩ | ⟨e, _⟩
    · cases t with
      | none => exact ⟨q, hres⟩
      | some t =>
        have := h1.mp ⟨t, q, rfl⟩
        rw [← hw] at this
        cases this
    · exact absurd e h2
  · rw [seqLoop] at hw
    rcases bind_ub hw with hw | ⟨o, ho, hw⟩
    · have := (eval_safe (u := fun r => R.designates.contains r) hx grammar_good grammar_calls n).safe (.tok kw) s
        (by have := grammar_good r; rw [hb] at this; simp [Body.good, P.good, P.goodAll] at this ⊢; exact this.1) hs
      rw [hw] at this
      cases this.2.2
    · rw [if_neg (by rw [hfalse o ho]; simp)] at hw
      cases hw

theorem ifHead_ends {s : Strm} (h : GoodStmt s) (hm : ifHead.Is (restOf s)) : EndsInParen s := by
  have hhi := h.pos_hi
  have hlo := h.lo_pos
  obtain ⟨e, _, he⟩ := ifHead_shape hm
  have hat : At (tagsOf s) s.pos ((restOf s).map (·.token)) := by
    rw [restOf_map]
    exact slice_at hhi (by rw [Strm.len_tags]; exact h.hi_len)
  have hl := restOf_length h
  have hl2 := congrArg List.length he
  rw [he] at hat
  simp at hl2
  have h1 := hat (e.length + 2) (by simp)
  refine ⟨by omega, ?_⟩
  rw [show s.hi - 1 = s.pos + (e.length + 2) by omega, h1]
  simp

/-! ### The alternatives of `action_stmt`, when none of them can fail -/

theorem altsLoop_some {x : Exts} (hf : x.Forward) {n : Nat} : ∀ (rs : List R) (s : Strm) o, altsLoop (eval R.body x n) (rs.map .rule) s = .ok o →
    ∀ r ∈ rs, (∃ t q, Returns x r s (.ok (some t, q))) → o.ok = true
  | [], _, _, _, r, hr, _ => by cases hr
  | r0 :: rs, s, o, h, r, hr, ht => by
    rw [List.map_cons, altsLoop] at h
    pbind h with o1 h1
    by_cases hk : o1.ok = true
    · rw [if_pos hk] at h; injection h with h; subst h; exact hk
    · rw [if_neg hk, (eval_restores R.body x n _ s o1 rfl h1 (by simpa using hk)).1] at h
      rcases List.mem_cons.mp hr with rfl | hr
      · exfalso
        obtain ⟨t, q, ht⟩ := ht
        rcases rule_call h1 with ⟨_, h2, _⟩ | ⟨_, q2, h2⟩
        · exact hk h2
        · have e := ht.unique h2
          injection e with e
          injection e with e
          cases e
      · exact altsLoop_some hf rs s o h r hr ht

end SP
end FLPR
