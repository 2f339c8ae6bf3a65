import Verif.Lexer.Lemmas
/-!
# The scanner as a relation, and its termination
-/

namespace FLPR.Flex
open RE

theorem pick_exp_letter (c : Char) (cs : Str) (h : isExpLetter c = true) :
    pick (rules .expParse) (c :: cs) = some (1, .ret Tag.SG_EXPONENT_LETTER) := by
  have hm1 : Matches (oneOf ['e', 'd']) ((c :: cs).take 1) := by
    rw [m_oneOf]; exact ⟨c, by simp, by simpa [isExpLetter] using h⟩
  apply pick_eq _ _ 0
  refine ⟨⟨_, rfl⟩, ⟨by omega, by simp, _, _, rfl, hm1⟩, ?_, by omega⟩
  rintro j m ⟨h0, hle, r, a, hr, hm⟩
  obtain ⟨m, rfl⟩ : ∃ k, m = k + 1 := ⟨m - 1, by omega⟩
  match j with
  | 0 =>
    simp [rules] at hr
    rw [← hr.1, m_oneOf] at hm
    obtain ⟨d, e, _⟩ := hm
    have := congrArg List.length e
    rw [List.length_take, List.length_cons] at this
    rw [List.length_cons] at hle
    have h1 : ([d] : Str).length = 1 := rfl
    omega
  | 1 =>
    simp [rules] at hr
    rw [← hr.1, m_signed] at hm
    obtain ⟨sg, d, e, hsg, hd, hdig⟩ := hm
    rw [List.take_succ_cons] at e
    exfalso
    have hl := isExpLetter_isLetter c h
    rcases hsg with rfl | rfl | rfl
    · cases d with
      | nil => simp at hd
      | cons x d =>
        simp at e
        have := digit_not_letter x (hdig x (by simp))
        rw [← e.1, hl] at this
        simp at this
    · simp at e; rw [e.1] at hl; exact absurd hl (by decide)
    · simp at e; rw [e.1] at hl; exact absurd hl (by decide)
  | j + 2 => simp [rules] at hr

theorem signed_head (s : Str) (h : IsSigned s) : ∃ c t, s = c :: t ∧ isLetter c = false ∧ c ≠ '_' := by
  obtain ⟨sg, d, rfl, hsg, hd, hdig⟩ := h
  cases d with
  | nil => simp at hd
  | cons x d =>
    have := digit_not_letter x (hdig x (by simp))
    rcases hsg with rfl | rfl | rfl
    · exact ⟨x, d, rfl, this.1, this.2.2.1⟩
    · exact ⟨'-', x :: d, rfl, by decide, by decide⟩
    · exact ⟨'+', x :: d, rfl, by decide, by decide⟩

theorem pick_exp_signed (s : Str) (n : Nat) (hn : n ≤ s.length) (h : IsSigned (s.take n)) :
    ∃ m, n ≤ m ∧ 0 < m ∧ m ≤ s.length ∧ IsSigned (s.take m) ∧
      pick (rules .expParse) s = some (m, .popRet Tag.SG_EXPONENT) := by
  obtain ⟨c, t, e, hc, _⟩ := signed_head _ h
  have hn0 : 0 < n := by
    rcases Nat.eq_zero_or_pos n with rfl | h'
    · simp at e
    · exact h'
  obtain ⟨cs, rfl⟩ : ∃ cs, s = c :: cs := by
    cases s with
    | nil => simp at e
    | cons x xs =>
      obtain ⟨k, rfl⟩ : ∃ k, n = k + 1 := ⟨n - 1, by omega⟩
      simp at e; exact ⟨xs, by rw [e.1]⟩
  have hsp := pick_spec (rules .expParse) (c :: cs)
  have hr1 : RuleMatches (rules .expParse) (c :: cs) 1 n :=
    ⟨hn0, hn, _, _, rfl, (m_signed _).mpr h⟩
  cases hp : pick (rules .expParse) (c :: cs) with
  | none => rw [hp] at hsp; exact absurd hr1 (hsp 1 n)
  | some p =>
    obtain ⟨m, a⟩ := p
    rw [hp] at hsp
    obtain ⟨i, ⟨r, hr⟩, ⟨h0, hle, r', a', hr', hmat⟩, hlong, _⟩ := hsp
    rw [hr] at hr'
    simp at hr'
    obtain ⟨rfl, rfl⟩ := hr'
    match i with
    | 0 =>
      exfalso
      simp [rules] at hr
      rw [← hr.1, m_oneOf] at hmat
      obtain ⟨d, e2, hd⟩ := hmat
      obtain ⟨k, rfl⟩ : ∃ k, m = k + 1 := ⟨m - 1, by omega⟩
      simp at e2
      have : isExpLetter c = true := by rw [e2.1]; simpa [isExpLetter] using hd
      rw [isExpLetter_isLetter c this] at hc
      simp at hc
    | 1 =>
      simp [rules] at hr
      rw [← hr.1, m_signed] at hmat
      exact ⟨m, hlong 1 n hr1, h0, hle, hmat, by rw [← hr.2]⟩
    | i + 2 => simp [rules] at hr

theorem kind_head (s : Str) (h : Matches KIND s) : ∃ c t, s = c :: t ∧ c ≠ '_' := by
  rw [m_KIND] at h
  rcases h with ⟨hne, h⟩ | ⟨c, t, rfl, hc, _⟩
  · cases s with
    | nil => simp at hne
    | cons c t => exact ⟨c, t, rfl, (digit_not_letter c (h c (by simp))).2.2.1⟩
  · refine ⟨c, t, rfl, ?_⟩
    rintro rfl
    exact absurd hc (by decide)

theorem pick_kind_under (cs : Str) :
    pick (rules .kindParse) ('_' :: cs) = some (1, .ret Tag.TK_UNDERSCORE) := by
  apply pick_eq _ _ 0
  refine ⟨⟨_, rfl⟩, ⟨by omega, by simp, _, _, rfl, ?_⟩, ?_, by omega⟩
  · rw [m_lit]; simp; decide
  rintro j m ⟨h0, hle, r, a, hr, hm⟩
  obtain ⟨m, rfl⟩ : ∃ k, m = k + 1 := ⟨m - 1, by omega⟩
  match j with
  | 0 =>
    simp [rules] at hr
    rw [← hr.1, m_lit] at hm
    have := congrArg List.length hm
    rw [List.length_map, List.length_take, List.length_cons] at this
    rw [List.length_cons] at hle
    have h1 : (['_'] : Str).length = 1 := rfl
    omega
  | 1 =>
    simp [rules] at hr
    rw [← hr.1] at hm
    obtain ⟨c, t, e, hc⟩ := kind_head _ hm
    simp at e
    exact absurd e.1.symm hc
  | j + 2 => simp [rules] at hr

theorem pick_kind_param (s : Str) (n : Nat) (hn : n ≤ s.length) (h : Matches KIND (s.take n)) :
    ∃ m, n ≤ m ∧ 0 < m ∧ m ≤ s.length ∧ Matches KIND (s.take m) ∧
      pick (rules .kindParse) s = some (m, .popRet Tag.SG_KIND_PARAM) := by
  obtain ⟨c, t, e, hc⟩ := kind_head _ h
  have hn0 : 0 < n := by
    rcases Nat.eq_zero_or_pos n with rfl | h'
    · simp at e
    · exact h'
  obtain ⟨cs, rfl⟩ : ∃ cs, s = c :: cs := by
    cases s with
    | nil => simp at e
    | cons x xs =>
      obtain ⟨k, rfl⟩ : ∃ k, n = k + 1 := ⟨n - 1, by omega⟩
      simp at e; exact ⟨xs, by rw [e.1]⟩
  have hsp := pick_spec (rules .kindParse) (c :: cs)
  have hr1 : RuleMatches (rules .kindParse) (c :: cs) 1 n := ⟨hn0, hn, _, _, rfl, h⟩
  cases hp : pick (rules .kindParse) (c :: cs) with
  | none => rw [hp] at hsp; exact absurd hr1 (hsp 1 n)
  | some p =>
    obtain ⟨m, a⟩ := p
    rw [hp] at hsp
    obtain ⟨i, ⟨r, hr⟩, ⟨h0, hle, r', a', hr', hmat⟩, hlong, _⟩ := hsp
    rw [hr] at hr'
    simp at hr'
    obtain ⟨rfl, rfl⟩ := hr'
    match i with
    | 0 =>
      exfalso
      simp [rules] at hr
      rw [← hr.1, m_lit, map_underscore] at hmat
      obtain ⟨k, rfl⟩ : ∃ k, m = k + 1 := ⟨m - 1, by omega⟩
      simp at hmat
      exact hc hmat.1
    | 1 =>
      simp [rules] at hr
      rw [← hr.1] at hmat
      exact ⟨m, hlong 1 n hr1, h0, hle, hmat, by rw [← hr.2]⟩
    | i + 2 => simp [rules] at hr

/-- A run of the scanner over a whole text that starts in one of the two conditions which occur
between tokens: the tokens returned and the condition at the end. -/
inductive Run : Cond → Nat → Str → List Lexeme → Cond → Prop where
  | done (q : Cond) (pos : Nat) : Run q pos [] [] q
  | white {pos c cs ls q} : (c = ' ' ∨ c = '\t' ∨ c = '\r' ∨ c = '\n') →
      Run .initial (pos + 1) cs ls q → Run .initial pos (c :: cs) ls q
  | tok {pos n t s ls q} : 0 < n → n ≤ s.length → pick (rules .initial) s = some (n, .ret t) →
      Run .initial (pos + n) (s.drop n) ls q →
      Run .initial pos s (⟨t, s.take n, pos + n⟩ :: ls) q
  | toReal {pos n s ls q} : s ≠ [] → pick (rules .initial) s = some (n, .begin .realParse) →
      NumStart s → Run .realParse pos s ls q → Run .initial pos s ls q
  | signif {pos n s ls q} : 0 < n → n ≤ s.length →
      pick (rules .realParse) s = some (n, .ret Tag.SG_SIGNIFICAND) → NumStart s →
      (Matches SIGNIFICAND (s.take n) ∨ Matches (plus DIGIT) (s.take n)) →
      Run .realParse (pos + n) (s.drop n) ls q →
      Run .realParse pos s (⟨Tag.SG_SIGNIFICAND, s.take n, pos + n⟩ :: ls) q
  | expo {pos c cs m ls q} : isExpLetter c = true → 0 < m → m ≤ cs.length → IsSigned (cs.take m) →
      Run .realParse (pos + 1 + m) (cs.drop m) ls q →
      Run .realParse pos (c :: cs) (⟨Tag.SG_EXPONENT_LETTER, [c], pos + 1⟩ ::
        ⟨Tag.SG_EXPONENT, cs.take m, pos + 1 + m⟩ :: ls) q
  | kind {pos cs m ls q} : 0 < m → m ≤ cs.length → Matches KIND (cs.take m) →
      Run .realParse (pos + 1 + m) (cs.drop m) ls q →
      Run .realParse pos ('_' :: cs) (⟨Tag.TK_UNDERSCORE, ['_'], pos + 1⟩ ::
        ⟨Tag.SG_KIND_PARAM, cs.take m, pos + 1 + m⟩ :: ls) q
  | toInit {pos s ls q} : s ≠ [] → ¬ NumStart s →
      (∀ n ≤ s.length, ¬ Matches EXPONENT (s.take n) ∧
        ¬ Matches (.seq (lit ['_']) KIND) (s.take n)) →
      Run .initial pos s ls q → Run .realParse pos s ls q

/-- The conditions that occur between tokens. -/
def Between (q : Cond) : Prop := q = .initial ∨ q = .realParse

theorem length_drop_lt (s : Str) (n : Nat) (h0 : 0 < n) (h : n ≤ s.length) :
    (s.drop n).length < s.length := by
  rw [List.length_drop]; omega

/-- The scanner always terminates without an error, and is described by `Run`. -/
theorem scan_terminates (s : Str) : ∀ (q : Cond) (stk : List Cond) (pos fuel : Nat), Between q →
    2 * s.length + 1 ≤ fuel → ∃ ls q', scanGo fuel ⟨q, stk⟩ pos s = some (.ok (ls, ⟨q', stk⟩)) ∧
      Run q pos s ls q' ∧ Between q' := by
  induction hlen : s.length using Nat.strongRecOn generalizing s with
  | _ k ih =>
  intro q stk pos fuel hq hf
  subst hlen
  cases s with
  | nil =>
    cases fuel with
    | zero => simp at hf
    | succ f => exact ⟨[], q, rfl, .done q pos, hq⟩
  | cons c cs =>
    -- the initial condition when no text is put back
    have init_step : ∀ f, 2 * (c :: cs).length - 1 ≤ f →
        (∀ n q', pick (rules .initial) (c :: cs) ≠ some (n, .begin q')) →
        ∃ ls q', scanGo (f + 1) ⟨.initial, stk⟩ pos (c :: cs) = some (.ok (ls, ⟨q', stk⟩)) ∧
          Run .initial pos (c :: cs) ls q' ∧ Between q' := by
      intro f hf hnb
      have hcl : (c :: cs).length = cs.length + 1 := rfl
      rcases pick_initial c cs with ⟨n, t, h0, hle, hp⟩ | ⟨hp, hw⟩ | ⟨n, hp, _⟩ | ⟨hp, hw⟩
      · have hlt := length_drop_lt (c :: cs) n h0 hle
        obtain ⟨ls, q', h1, h2, h3⟩ := ih _ hlt ((c :: cs).drop n) rfl .initial stk (pos + n) f
          (Or.inl rfl) (by omega)
        refine ⟨_, q', ?_, .tok h0 hle hp h2, h3⟩
        simp only [scanGo, hp, h1]
      · obtain ⟨ls, q', h1, h2, h3⟩ := ih cs.length (by omega) cs rfl .initial stk (pos + 1) f
          (Or.inl rfl) (by omega)
        refine ⟨ls, q', ?_, .white (by tauto) h2, h3⟩
        simp only [scanGo, hp, List.drop_succ_cons, List.drop_zero, h1]
      · exact absurd hp (hnb n _)
      · obtain ⟨ls, q', h1, h2, h3⟩ := ih cs.length (by omega) cs rfl .initial stk (pos + 1) f
          (Or.inl rfl) (by omega)
        refine ⟨ls, q', ?_, .white (by tauto) h2, h3⟩
        simp only [scanGo, hp, h1]
    -- the condition for reals at the start of a number
    have real_num : ∀ f, 2 * (c :: cs).length - 1 ≤ f → NumStart (c :: cs) →
        ∃ ls q', scanGo (f + 1) ⟨.realParse, stk⟩ pos (c :: cs) = some (.ok (ls, ⟨q', stk⟩)) ∧
          Run .realParse pos (c :: cs) ls q' ∧ Between q' := by
      intro f hf hn
      rcases pick_real c cs with ⟨_, n, h0, hle, hp, hm⟩ | ⟨h, _⟩
      · have hlt := length_drop_lt (c :: cs) n h0 hle
        obtain ⟨ls, q', h1, h2, h3⟩ := ih _ hlt ((c :: cs).drop n) rfl .realParse stk (pos + n) f
          (Or.inr rfl) (by omega)
        refine ⟨_, q', ?_, .signif h0 hle hp hn hm h2, h3⟩
        simp only [scanGo, hp, h1]
      · exact absurd hn h
    have hcl : (c :: cs).length = cs.length + 1 := rfl
    obtain ⟨f, rfl⟩ : ∃ f, fuel = f + 2 := ⟨fuel - 2, by omega⟩
    rcases hq with rfl | rfl
    · by_cases hb : ∃ n q', pick (rules .initial) (c :: cs) = some (n, .begin q')
      · obtain ⟨n, q', hp⟩ := hb
        rcases pick_initial c cs with ⟨n, t, h0, hle, hp'⟩ | ⟨hp', hw⟩ | ⟨n, hp', hn⟩ | ⟨hp', hw⟩
        · rw [hp] at hp'; simp at hp'
        · rw [hp] at hp'; simp at hp'
        · obtain ⟨ls, q', h1, h2, h3⟩ := real_num f (by omega) hn
          refine ⟨ls, q', ?_, .toReal (by simp) hp' hn h2, h3⟩
          rw [scanGo]
          simp only [hp', h1]
        · rw [hp] at hp'; simp at hp'
      · exact init_step (f + 1) (by omega) (fun n q' h => hb ⟨n, q', h⟩)
    · rcases pick_real c cs with ⟨hn, _⟩ | ⟨hn, ⟨n, h0, hle, hm, hp⟩ | ⟨n, h0, hle, hm, hp⟩ | ⟨hp, hx⟩⟩
      · exact real_num (f + 1) (by omega) hn
      · -- exponent
        rw [m_EXPONENT] at hm
        obtain ⟨d, t, e, hd, hs⟩ := hm
        obtain ⟨n, rfl⟩ : ∃ k, n = k + 1 := ⟨n - 1, by omega⟩
        rw [List.take_succ_cons] at e
        simp at e
        obtain ⟨rfl, rfl⟩ := e
        obtain ⟨m, hnm, hm0, hml, hms, hpm⟩ := pick_exp_signed cs n (by simp at hle; omega) hs
        have hlt := length_drop_lt cs m hm0 hml
        obtain ⟨x, xs, rfl⟩ : ∃ x xs, cs = x :: xs := by
          cases cs with
          | nil => simp at hml; omega
          | cons x xs => exact ⟨x, xs, rfl⟩
        have hcl2 : (x :: xs).length = xs.length + 1 := rfl
        obtain ⟨g, rfl⟩ : ∃ g, f = g + 1 := ⟨f - 1, by omega⟩
        obtain ⟨ls, q', h1, h2, h3⟩ := ih _ (by omega) ((x :: xs).drop m) rfl .realParse stk
          (pos + 1 + m) g (Or.inr rfl) (by omega)
        refine ⟨_, q', ?_, .expo hd hm0 hml hms h2, h3⟩
        rw [scanGo]
        simp only [hp]
        rw [scanGo]
        simp only [pick_exp_letter c (x :: xs) hd, List.drop_succ_cons, List.drop_zero,
          List.take_succ_cons, List.take_zero]
        rw [scanGo]
        simp only [hpm, h1]
      · -- kind parameter
        rw [m_underKind] at hm
        obtain ⟨t, e, hk⟩ := hm
        obtain ⟨n, rfl⟩ : ∃ k, n = k + 1 := ⟨n - 1, by omega⟩
        rw [List.take_succ_cons] at e
        simp at e
        obtain ⟨rfl, rfl⟩ := e
        obtain ⟨m, hnm, hm0, hml, hms, hpm⟩ := pick_kind_param cs n (by simp at hle; omega) hk
        have hlt := length_drop_lt cs m hm0 hml
        obtain ⟨x, xs, rfl⟩ : ∃ x xs, cs = x :: xs := by
          cases cs with
          | nil => simp at hml; omega
          | cons x xs => exact ⟨x, xs, rfl⟩
        have hcl2 : (x :: xs).length = xs.length + 1 := rfl
        obtain ⟨g, rfl⟩ : ∃ g, f = g + 1 := ⟨f - 1, by omega⟩
        obtain ⟨ls, q', h1, h2, h3⟩ := ih _ (by omega) ((x :: xs).drop m) rfl .realParse stk
          (pos + 1 + m) g (Or.inr rfl) (by omega)
        refine ⟨_, q', ?_, .kind hm0 hml hms h2, h3⟩
        rw [scanGo]
        simp only [hp]
        rw [scanGo]
        simp only [pick_kind_under (x :: xs), List.drop_succ_cons, List.drop_zero,
          List.take_succ_cons, List.take_zero]
        rw [scanGo]
        simp only [hpm, h1]
      · obtain ⟨ls, q', h1, h2, h3⟩ := init_step f (by omega) (by
          intro n q' hp'
          rcases pick_initial c cs with ⟨n, t, h0, hle, hp''⟩ | ⟨hp'', hw⟩ | ⟨n, hp'', hn'⟩ |
            ⟨hp'', hw⟩
          · rw [hp'] at hp''; simp at hp''
          · rw [hp'] at hp''; simp at hp''
          · exact hn hn'
          · rw [hp'] at hp''; simp at hp'')
        refine ⟨ls, q', ?_, .toInit (by simp) hn hx h2, h3⟩
        rw [scanGo]
        simp only [hp, h1]

/-- The scanner on one line: success exactly on ASCII text. -/
theorem scan_ok (st : State) (text : Str) (hq : Between st.cond)
    (ha : ∀ c ∈ Smash.cStr text, isAscii c = true) :
    ∃ ls q', scan st text = .ok (ls, ⟨q', st.stack⟩) ∧ Run st.cond 0 (Smash.cStr text) ls q' ∧
      Between q' := by
  obtain ⟨ls, q', h1, h2, h3⟩ := scan_terminates (Smash.cStr text) st.cond st.stack 0
    (scanFuel (Smash.cStr text)) hq (by unfold scanFuel; omega)
  refine ⟨ls, q', ?_, h2, h3⟩
  unfold scan
  simp only
  rw [if_pos (List.all_eq_true.mpr ha)]
  have : (⟨st.cond, st.stack⟩ : State) = st := rfl
  rw [this] at h1
  rw [h1]

end FLPR.Flex
