import Verif.Lexer.Model
import Verif.FileLine.Lemmas
/-!
# What the patterns of the scanner match, and termination
-/

namespace FLPR.Flex
open RE

theorem m_star_cls (p : Char → Bool) (s : Str) :
    Matches (.star (.cls p)) s ↔ ∀ c ∈ s, p c = true := by
  induction s with
  | nil => simp; exact .starNil
  | cons c s ih =>
    constructor
    · intro h
      obtain ⟨u, v, rfl, h1, h2⟩ := Matches.star_cons h
      rw [Matches.cls_iff] at h1
      obtain ⟨d, h1, hd⟩ := h1
      simp at h1
      obtain ⟨rfl, rfl⟩ := h1
      simp only [List.nil_append] at ih
      intro x hx
      rcases List.mem_cons.mp hx with rfl | hx
      · exact hd
      · exact ih.mp h2 x hx
    · intro h
      have := Matches.starCons (a := .cls p) (s := [c]) (t := s) (.cls (h c (by simp)))
        (ih.mpr (fun x hx => h x (by simp [hx])))
      exact this

theorem m_plus_cls (p : Char → Bool) (s : Str) :
    Matches (plus (.cls p)) s ↔ s ≠ [] ∧ ∀ c ∈ s, p c = true := by
  unfold plus
  rw [Matches.seq_iff]
  constructor
  · rintro ⟨u, v, rfl, h1, h2⟩
    rw [Matches.cls_iff] at h1
    obtain ⟨c, rfl, hc⟩ := h1
    rw [m_star_cls] at h2
    refine ⟨by simp, ?_⟩
    intro x hx
    simp at hx
    rcases hx with rfl | hx
    · exact hc
    · exact h2 x hx
  · rintro ⟨hne, h⟩
    cases s with
    | nil => simp at hne
    | cons c s =>
      exact ⟨[c], s, rfl, .cls (h c (by simp)), (m_star_cls p s).mpr (fun x hx => h x (by simp [hx]))⟩

theorem m_lit (w s : Str) : Matches (lit w) s ↔ s.map lowChar = w := by
  induction w generalizing s with
  | nil => simp [lit, Matches.eps_iff]
  | cons c w ih =>
    cases w with
    | nil =>
      simp only [lit, Matches.cls_iff]
      constructor
      · rintro ⟨d, rfl, h⟩; simpa using h
      · intro h
        cases s with
        | nil => simp at h
        | cons d s => simp at h; exact ⟨d, by simp [h.2], by simp [h.1]⟩
    | cons c2 w =>
      rw [lit, Matches.seq_iff]
      · constructor
        · rintro ⟨u, v, rfl, h1, h2⟩
          rw [Matches.cls_iff] at h1
          obtain ⟨d, rfl, hd⟩ := h1
          rw [ih] at h2
          simp at hd
          simp [hd, h2]
        · intro h
          cases s with
          | nil => simp at h
          | cons d s =>
            simp at h
            refine ⟨[d], s, rfl, .cls (by simp [h.1]), (ih s).mpr h.2⟩
      · simp

theorem m_opt (r : RE) (s : Str) : Matches (opt r) s ↔ Matches r s ∨ s = [] := by
  unfold opt
  rw [Matches.alt_iff, Matches.eps_iff]

theorem m_oneOf (l s : Str) : Matches (oneOf l) s ↔ ∃ c, s = [c] ∧ lowChar c ∈ l := by
  unfold oneOf
  rw [Matches.cls_iff]
  simp

theorem m_NAME (s : Str) :
    Matches NAME s ↔ ∃ c t, s = c :: t ∧ isLetter c = true ∧ ∀ x ∈ t, isWord x = true := by
  unfold NAME
  rw [Matches.seq_iff]
  constructor
  · rintro ⟨u, v, rfl, h1, h2⟩
    rw [Matches.cls_iff] at h1
    obtain ⟨c, rfl, hc⟩ := h1
    exact ⟨c, v, rfl, hc, (m_star_cls _ _).mp h2⟩
  · rintro ⟨c, t, rfl, h1, h2⟩
    exact ⟨[c], t, rfl, .cls h1, (m_star_cls _ _).mpr h2⟩

theorem toNat_ofNat' (n : Nat) (h : n.isValidChar) : (Char.ofNat n).toNat = n := by
  unfold Char.ofNat
  rw [dif_pos h]
  rfl

theorem lowChar_eq_dot (d : Char) : lowChar d = '.' ↔ d = '.' := by
  unfold lowChar
  split
  · rename_i h
    constructor
    · intro e
      have : (Char.ofNat (d.toNat + 32)).toNat = 46 := by rw [e]; rfl
      have h1 : 65 ≤ d.toNat := h.1
      have h2 : d.toNat ≤ 90 := h.2
      rw [toNat_ofNat' _ (by unfold Nat.isValidChar; omega)] at this
      omega
    · rintro rfl
      exact absurd h.1 (by decide)
  · rfl

theorem lowChar_eq_of_not_letter (d c : Char) (h : isLower c = false) :
    lowChar d = c → d = c := by
  unfold lowChar
  split
  · rename_i hd
    intro e
    exfalso
    have h1 : 65 ≤ d.toNat := hd.1
    have h2 : d.toNat ≤ 90 := hd.2
    have hn : (Char.ofNat (d.toNat + 32)).toNat = d.toNat + 32 := by
      rw [toNat_ofNat' _ (by unfold Nat.isValidChar; omega)]
    have : isLower c = true := by
      subst e
      unfold isLower
      have a : 'a' ≤ Char.ofNat (d.toNat + 32) := by
        show 97 ≤ (Char.ofNat (d.toNat + 32)).toNat; omega
      have b : Char.ofNat (d.toNat + 32) ≤ 'z' := by
        show (Char.ofNat (d.toNat + 32)).toNat ≤ 122; omega
      simp [a, b]
    rw [h] at this; simp at this
  · exact id

theorem m_digits (s : Str) : Matches (plus DIGIT) s ↔ s ≠ [] ∧ ∀ c ∈ s, isDigit c = true :=
  m_plus_cls _ _

theorem m_SIGNIFICAND (s : Str) :
    Matches SIGNIFICAND s ↔ ∃ a b, s = a ++ '.' :: b ∧ (∀ c ∈ a, isDigit c = true) ∧
      (∀ c ∈ b, isDigit c = true) ∧ (a ≠ [] ∨ b ≠ []) := by
  have hdot : ∀ u : Str, u.map lowChar = ['.'] ↔ u = ['.'] := by
    intro u
    cases u with
    | nil => simp
    | cons c u => simp [lowChar_eq_dot]
  unfold SIGNIFICAND
  rw [Matches.alt_iff, Matches.seq_iff, Matches.seq_iff]
  simp only [Matches.seq_iff, m_lit, hdot, m_plus_cls, m_star_cls]
  constructor
  · rintro (⟨u, v, rfl, ⟨h1, h2⟩, w, x, rfl, rfl, h3⟩ | ⟨u, v, rfl, rfl, h1, h2⟩)
    · exact ⟨u, x, rfl, h2, h3, Or.inl h1⟩
    · exact ⟨[], v, rfl, by simp, h2, Or.inr h1⟩
  · rintro ⟨a, b, rfl, h1, h2, h3⟩
    by_cases ha : a = []
    · subst ha
      exact Or.inr ⟨['.'], b, rfl, rfl, by simpa using h3, h2⟩
    · exact Or.inl ⟨a, '.' :: b, rfl, ⟨ha, h1⟩, ['.'], b, rfl, rfl, h2⟩

/-- `[-+]?[0-9]+` -/
def IsSigned (s : Str) : Prop :=
  ∃ sg d, s = sg ++ d ∧ (sg = [] ∨ sg = ['-'] ∨ sg = ['+']) ∧ d ≠ [] ∧ ∀ c ∈ d, isDigit c = true

theorem m_signed (s : Str) :
    Matches (.seq (opt (oneOf ['-', '+'])) (plus DIGIT)) s ↔ IsSigned s := by
  rw [Matches.seq_iff]
  simp only [m_opt, m_oneOf, m_digits]
  unfold IsSigned
  constructor
  · rintro ⟨u, v, rfl, h1, h2, h3⟩
    refine ⟨u, v, rfl, ?_, h2, h3⟩
    rcases h1 with ⟨c, rfl, h1⟩ | rfl
    · simp at h1
      rcases h1 with h1 | h1
      · exact Or.inr (Or.inl (by rw [lowChar_eq_of_not_letter c '-' (by decide) h1]))
      · exact Or.inr (Or.inr (by rw [lowChar_eq_of_not_letter c '+' (by decide) h1]))
    · exact Or.inl rfl
  · rintro ⟨sg, d, rfl, h1, h2, h3⟩
    refine ⟨sg, d, rfl, ?_, h2, h3⟩
    rcases h1 with rfl | rfl | rfl
    · exact Or.inr rfl
    · exact Or.inl ⟨'-', rfl, by decide⟩
    · exact Or.inl ⟨'+', rfl, by decide⟩

/-- `e` or `d` in either case. -/
def isExpLetter (c : Char) : Bool := lowChar c == 'e' || lowChar c == 'd'

theorem m_EXPONENT (s : Str) :
    Matches EXPONENT s ↔ ∃ c t, s = c :: t ∧ isExpLetter c = true ∧ IsSigned t := by
  unfold EXPONENT
  rw [Matches.seq_iff]
  simp only [m_oneOf, m_signed]
  constructor
  · rintro ⟨u, v, rfl, ⟨c, rfl, h1⟩, h2⟩
    exact ⟨c, v, rfl, by simpa [isExpLetter] using h1, h2⟩
  · rintro ⟨c, t, rfl, h1, h2⟩
    exact ⟨[c], t, rfl, ⟨c, rfl, by simpa [isExpLetter] using h1⟩, h2⟩

theorem m_KIND (s : Str) :
    Matches KIND s ↔ (s ≠ [] ∧ ∀ c ∈ s, isDigit c = true) ∨
      ∃ c t, s = c :: t ∧ isLetter c = true ∧ ∀ x ∈ t, isWord x = true := by
  unfold KIND
  rw [Matches.alt_iff, m_plus_cls, m_NAME]

theorem KIND_ne_nil (s : Str) (h : Matches KIND s) : s ≠ [] := by
  rw [m_KIND] at h
  rcases h with h | ⟨c, t, rfl, _⟩
  · exact h.1
  · simp

theorem map_underscore (u : Str) : u.map lowChar = ['_'] ↔ u = ['_'] := by
  cases u with
  | nil => simp
  | cons c u =>
    simp only [List.map_cons, List.cons.injEq, List.map_eq_nil_iff]
    constructor
    · rintro ⟨h, rfl⟩; exact ⟨lowChar_eq_of_not_letter c '_' (by decide) h, rfl⟩
    · rintro ⟨rfl, rfl⟩; exact ⟨by decide, rfl⟩

theorem m_underKind (s : Str) :
    Matches (.seq (lit ['_']) KIND) s ↔ ∃ t, s = '_' :: t ∧ Matches KIND t := by
  rw [Matches.seq_iff]
  simp only [m_lit, map_underscore]
  constructor
  · rintro ⟨u, v, rfl, rfl, h⟩; exact ⟨v, rfl, h⟩
  · rintro ⟨t, rfl, h⟩; exact ⟨['_'], t, rfl, rfl, h⟩

/-! ## The start of a real literal -/

/-- A real literal starts here: digits and a point, a point and a digit, or digits. -/
def NumStart (s : Str) : Prop :=
  ∃ m, 0 < m ∧ m ≤ s.length ∧ (Matches SIGNIFICAND (s.take m) ∨ Matches (plus DIGIT) (s.take m))

theorem numStart_of_append (u v w s : Str) (n : Nat) (hn : n ≤ s.length) (h : s.take n = u ++ v ++ w)
    (hu : Matches SIGNIFICAND u ∨ Matches (plus DIGIT) u) : NumStart s := by
  have hne : u ≠ [] := by
    rcases hu with hu | hu
    · rw [m_SIGNIFICAND] at hu; obtain ⟨a, b, rfl, _⟩ := hu; simp
    · exact ((m_digits u).mp hu).1
  have hl : (s.take n).length = n := by simp; omega
  have hul : u.length ≤ n := by rw [← hl, h]; simp
  have ht : s.take u.length = u := by
    have : s.take u.length = (s.take n).take u.length := by
      rw [List.take_take]; congr 1; omega
    rw [this, h, List.append_assoc, List.take_left']
    rfl
  exact ⟨u.length, List.length_pos_iff.mpr hne, by omega, by rw [ht]; exact hu⟩

theorem numStart_real1 (s : Str) (n : Nat) (hn : n ≤ s.length)
    (h : Matches (.seq SIGNIFICAND (.seq (opt EXPONENT) kindSuffix)) (s.take n)) : NumStart s := by
  rw [Matches.seq_iff] at h
  obtain ⟨u, v, h, h1, _⟩ := h
  exact numStart_of_append u v [] s n hn (by simpa using h) (Or.inl h1)

theorem numStart_real2 (s : Str) (n : Nat) (hn : n ≤ s.length)
    (h : Matches (.seq (plus DIGIT) (.seq EXPONENT kindSuffix)) (s.take n)) : NumStart s := by
  rw [Matches.seq_iff] at h
  obtain ⟨u, v, h, h1, _⟩ := h
  exact numStart_of_append u v [] s n hn (by simpa using h) (Or.inr h1)

theorem digit_not_letter (c : Char) (h : isDigit c = true) : isLetter c = false ∧
    isExpLetter c = false ∧ c ≠ '_' ∧ c ≠ '.' ∧ c ≠ '\n' := by
  unfold isDigit at h
  simp only [Bool.and_eq_true, decide_eq_true_eq] at h
  have h1 : 48 ≤ c.toNat := h.1
  have h2 : c.toNat ≤ 57 := h.2
  have hl : lowChar c = c := by
    unfold lowChar
    rw [if_neg]
    rintro ⟨h3, _⟩
    have : 65 ≤ c.toNat := h3
    omega
  refine ⟨?_, ?_, ?_, ?_, ?_⟩
  · unfold isLetter isLower
    rw [hl]
    simp only [Bool.and_eq_false_iff, decide_eq_false_iff_not]
    left
    intro h3
    have : 97 ≤ c.toNat := h3
    omega
  · unfold isExpLetter
    rw [hl]
    simp only [Bool.or_eq_false_iff, beq_eq_false_iff_ne]
    constructor <;> (rintro rfl; revert h2; decide)
  all_goals (rintro rfl; revert h1 h2; decide)

theorem isExpLetter_isLetter (c : Char) (h : isExpLetter c = true) : isLetter c = true := by
  unfold isExpLetter at h
  simp at h
  unfold isLetter
  rcases h with h | h <;> rw [h] <;> decide

theorem head_numStart (c : Char) (s : Str) (h : NumStart (c :: s)) : isDigit c = true ∨ c = '.' := by
  obtain ⟨m, h0, _, h⟩ := h
  obtain ⟨m, rfl⟩ : ∃ k, m = k + 1 := ⟨m - 1, by omega⟩
  rw [List.take_succ_cons] at h
  rcases h with h | h
  · rw [m_SIGNIFICAND] at h
    obtain ⟨a, b, e, ha, _⟩ := h
    cases a with
    | nil => simp at e; exact Or.inr e.1
    | cons x a => simp at e; exact Or.inl (e.1 ▸ ha x (by simp))
  · exact Or.inl (((m_digits _).mp h).2 c (by simp))

/-! ## The choices in the conditions for real literals -/

theorem rule_index_lt {α : Type} (rules : List (RE × α)) (s : Str) (i n : Nat)
    (h : RuleMatches rules s i n) : i < rules.length := by
  obtain ⟨_, _, r, a, h, _⟩ := h
  exact (List.getElem?_eq_some_iff.mp h).1

/-- In the condition for real literals: the possible choices. -/
theorem pick_real (c : Char) (cs : Str) :
    (NumStart (c :: cs) ∧ ∃ n, 0 < n ∧ n ≤ (c :: cs).length ∧
      pick (rules .realParse) (c :: cs) = some (n, .ret Tag.SG_SIGNIFICAND) ∧
      (Matches SIGNIFICAND ((c :: cs).take n) ∨ Matches (plus DIGIT) ((c :: cs).take n))) ∨
    (¬ NumStart (c :: cs) ∧
      ((∃ n, 0 < n ∧ n ≤ (c :: cs).length ∧ Matches EXPONENT ((c :: cs).take n) ∧
          pick (rules .realParse) (c :: cs) = some (n, .push .expParse)) ∨
       (∃ n, 0 < n ∧ n ≤ (c :: cs).length ∧ Matches (.seq (lit ['_']) KIND) ((c :: cs).take n) ∧
          pick (rules .realParse) (c :: cs) = some (n, .push .kindParse)) ∨
       (pick (rules .realParse) (c :: cs) = some (1, .begin .initial) ∧
        ∀ n ≤ (c :: cs).length, ¬ Matches EXPONENT ((c :: cs).take n) ∧
          ¬ Matches (.seq (lit ['_']) KIND) ((c :: cs).take n)))) := by
  have hsp := pick_spec (rules .realParse) (c :: cs)
  have any1 : RuleMatches (rules .realParse) (c :: cs) 4 1 :=
    ⟨by omega, by simp, _, _, rfl, by simpa using Matches.cls rfl⟩
  have r0 : ∀ m, 0 < m → m ≤ (c :: cs).length → Matches SIGNIFICAND ((c :: cs).take m) →
      RuleMatches (rules .realParse) (c :: cs) 0 m := fun m h1 h2 h3 => ⟨h1, h2, _, _, rfl, h3⟩
  have r1 : ∀ m, 0 < m → m ≤ (c :: cs).length → Matches (plus DIGIT) ((c :: cs).take m) →
      RuleMatches (rules .realParse) (c :: cs) 1 m := fun m h1 h2 h3 => ⟨h1, h2, _, _, rfl, h3⟩
  cases hp : pick (rules .realParse) (c :: cs) with
  | none => rw [hp] at hsp; exact absurd any1 (hsp 4 1)
  | some p =>
    obtain ⟨n, a⟩ := p
    rw [hp] at hsp
    obtain ⟨i, ⟨r, hr⟩, hm, hlong, hfirst⟩ := hsp
    have hi : i < 5 := rule_index_lt _ _ _ _ hm
    obtain ⟨h0, hle, r', a', hr', hmat⟩ := hm
    rw [hr] at hr'
    simp at hr'
    obtain ⟨rfl, rfl⟩ := hr'
    have num_lt : NumStart (c :: cs) → i = 0 ∨ i = 1 := by
      intro hn
      have hc := head_numStart c cs hn
      obtain ⟨m, h1, h2, h3⟩ := hn
      have hmn : m ≤ n := by
        rcases h3 with h3 | h3
        · exact hlong 0 m (r0 m h1 h2 h3)
        · exact hlong 1 m (r1 m h1 h2 h3)
      obtain ⟨n', rfl⟩ : ∃ k, n = k + 1 := ⟨n - 1, by omega⟩
      rw [List.take_succ_cons] at hmat
      match i, hi with
      | 0, _ => exact Or.inl rfl
      | 1, _ => exact Or.inr rfl
      | 2, _ =>
        simp [rules] at hr
        rw [← hr.1, m_EXPONENT] at hmat
        obtain ⟨d, t, e, hd, _⟩ := hmat
        simp at e
        rw [← e.1] at hd
        rcases hc with hc | rfl
        · rw [(digit_not_letter c hc).2.1] at hd; simp at hd
        · exact absurd hd (by decide)
      | 3, _ =>
        simp [rules] at hr
        rw [← hr.1, m_underKind] at hmat
        obtain ⟨t, e, _⟩ := hmat
        simp at e
        rcases hc with hc | rfl
        · exact absurd e.1 (digit_not_letter c hc).2.2.1
        · exact absurd e.1 (by decide)
      | 4, _ =>
        exfalso
        simp [rules] at hr
        rw [← hr.1, Matches.cls_iff] at hmat
        obtain ⟨d, e, _⟩ := hmat
        have : ((c :: cs).take (n' + 1)).length = 1 := by rw [List.take_succ_cons, e]; rfl
        rw [List.length_take] at this
        have hcl : (c :: cs).length = cs.length + 1 := rfl
        have hn1 : n' = 0 := by omega
        subst hn1
        have hm1 : m = 1 := by omega
        subst hm1
        rcases h3 with h3 | h3
        · exact absurd (hfirst 0 (r0 _ h1 h2 h3)) (by omega)
        · exact absurd (hfirst 1 (r1 _ h1 h2 h3)) (by omega)
    by_cases hn : NumStart (c :: cs)
    · left
      refine ⟨hn, n, h0, hle, ?_⟩
      rcases num_lt hn with rfl | rfl
      · simp [rules] at hr
        rw [← hr.1] at hmat
        exact ⟨by rw [← hr.2], Or.inl hmat⟩
      · simp [rules] at hr
        rw [← hr.1] at hmat
        exact ⟨by rw [← hr.2], Or.inr hmat⟩
    · right
      refine ⟨hn, ?_⟩
      match i, hi with
      | 0, _ =>
        simp [rules] at hr
        rw [← hr.1] at hmat
        exact absurd ⟨n, h0, hle, Or.inl hmat⟩ hn
      | 1, _ =>
        simp [rules] at hr
        rw [← hr.1] at hmat
        exact absurd ⟨n, h0, hle, Or.inr hmat⟩ hn
      | 2, _ =>
        simp [rules] at hr
        rw [← hr.1] at hmat
        exact Or.inl ⟨n, h0, hle, hmat, by rw [← hr.2]⟩
      | 3, _ =>
        simp [rules] at hr
        rw [← hr.1] at hmat
        exact Or.inr (Or.inl ⟨n, h0, hle, hmat, by rw [← hr.2]⟩)
      | 4, _ =>
        right; right
        simp [rules] at hr
        rw [← hr.1, Matches.cls_iff] at hmat
        obtain ⟨d, e, _⟩ := hmat
        have : ((c :: cs).take n).length = 1 := by rw [e]; rfl
        rw [List.length_take] at this
        have hcl : (c :: cs).length = cs.length + 1 := rfl
        have hn1 : n = 1 := by omega
        subst hn1
        refine ⟨by rw [← hr.2], ?_⟩
        intro m hm
        constructor
        · intro hx
          have hm0 : 0 < m := by
            rcases Nat.eq_zero_or_pos m with rfl | h
            · rw [m_EXPONENT] at hx; obtain ⟨_, _, e, _⟩ := hx; simp at e
            · exact h
          have hr2 : RuleMatches (rules .realParse) (c :: cs) 2 m := ⟨hm0, hm, _, _, rfl, hx⟩
          have := hlong 2 m hr2
          have hm1 : m = 1 := by omega
          subst hm1
          exact absurd (hfirst 2 hr2) (by omega)
        · intro hx
          have hm0 : 0 < m := by
            rcases Nat.eq_zero_or_pos m with rfl | h
            · rw [m_underKind] at hx; obtain ⟨_, e, _⟩ := hx; simp at e
            · exact h
          have hr2 : RuleMatches (rules .realParse) (c :: cs) 3 m := ⟨hm0, hm, _, _, rfl, hx⟩
          have := hlong 3 m hr2
          have hm1 : m = 1 := by omega
          subst hm1
          exact absurd (hfirst 3 hr2) (by omega)

/-- In the initial condition a rule puts text back only at the start of a number. -/
theorem pick_initial (c : Char) (cs : Str) :
    (∃ n t, 0 < n ∧ n ≤ (c :: cs).length ∧ pick (rules .initial) (c :: cs) = some (n, .ret t)) ∨
    (pick (rules .initial) (c :: cs) = some (1, .skip) ∧ (c = ' ' ∨ c = '\t' ∨ c = '\r')) ∨
    (∃ n, pick (rules .initial) (c :: cs) = some (n, .begin .realParse) ∧ NumStart (c :: cs)) ∨
    (pick (rules .initial) (c :: cs) = none ∧ c = '\n') := by
  have hsp := pick_spec (rules .initial) (c :: cs)
  cases hp : pick (rules .initial) (c :: cs) with
  | none =>
    rw [hp] at hsp
    right; right; right
    refine ⟨rfl, ?_⟩
    by_contra hc
    refine hsp ((keywords.map (fun k => (lit k.1.toList, Act.ret k.2))).length +
      (symbols.map (fun k => (lit k.1.toList, Act.ret k.2))).length + 10) 1
      ⟨by omega, by simp, dot, .ret Tag.UNKNOWN, ?_, ?_⟩
    · simp only [rules, initialRules]
      rw [List.getElem?_append_right (by simp)]
      simp [literalRules]
    · simp only [List.take_succ_cons, List.take_zero]
      exact Matches.cls (by simp [hc])
  | some p =>
    obtain ⟨n, a⟩ := p
    rw [hp] at hsp
    obtain ⟨i, ⟨r, hr⟩, ⟨h0, hle, r', a', hr', hmat⟩, _, _⟩ := hsp
    rw [hr] at hr'
    simp at hr'
    obtain ⟨rfl, rfl⟩ := hr'
    have hmem : (r, a) ∈ rules .initial := List.mem_of_getElem? hr
    simp only [rules, initialRules, List.mem_append, List.mem_map] at hmem
    rcases hmem with (⟨k, _, hk⟩ | ⟨k, _, hk⟩) | hmem
    · simp at hk
      exact Or.inl ⟨n, k.2, h0, hle, by rw [← hk.2]⟩
    · simp at hk
      exact Or.inl ⟨n, k.2, h0, hle, by rw [← hk.2]⟩
    · simp only [literalRules, List.mem_cons, List.not_mem_nil, or_false, Prod.mk.injEq] at hmem
      rcases hmem with h | h | h | h | h | h | h | h | h | h | h
      all_goals first
        | exact Or.inl ⟨n, _, h0, hle, by rw [h.2]⟩
        | skip
      · right; right; left
        exact ⟨n, by rw [h.2], numStart_real1 _ n hle (h.1 ▸ hmat)⟩
      · right; right; left
        exact ⟨n, by rw [h.2], numStart_real2 _ n hle (h.1 ▸ hmat)⟩
      · right; left
        rw [h.1, m_oneOf] at hmat
        obtain ⟨d, e, hd⟩ := hmat
        have : ((c :: cs).take n).length = 1 := by rw [e]; rfl
        rw [List.length_take] at this
        have hcl : (c :: cs).length = cs.length + 1 := rfl
        have hn1 : n = 1 := by omega
        subst hn1
        simp at e
        subst e
        refine ⟨by rw [h.2], ?_⟩
        simp at hd
        rcases hd with hd | hd | hd
        · exact Or.inl (lowChar_eq_of_not_letter c _ (by decide) hd)
        · exact Or.inr (Or.inl (lowChar_eq_of_not_letter c _ (by decide) hd))
        · exact Or.inr (Or.inr (lowChar_eq_of_not_letter c _ (by decide) hd))

end FLPR.Flex
