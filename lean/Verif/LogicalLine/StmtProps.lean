import Verif.LogicalLine.Model
/-!
# Statements of a logical line (C16)
-/

namespace FLPR

namespace Spec

/-- The pieces between semicolons; there is one more than there are semicolons. -/
def segments : List Tok → List (List Tok)
  | [] => [[]]
  | t :: ts =>
    if t.token = Tag.TK_SEMICOLON then [] :: segments ts
    else match segments ts with
      | [] => [[t]]
      | s :: ss => (t :: s) :: ss

/-- The tokens of a range. -/
def slice (ts : List Tok) (r : Nat × Nat) : List Tok := (ts.drop r.1).take (r.2 - r.1)

/-- `r` is a maximal non-empty run of tokens that are no semicolons. -/
def MaximalRun (ts : List Tok) (r : Nat × Nat) : Prop :=
  r.1 < r.2 ∧ r.2 ≤ ts.length ∧
  (∀ i t, r.1 ≤ i → i < r.2 → ts[i]? = some t → t.token ≠ Tag.TK_SEMICOLON) ∧
  (r.1 = 0 ∨ ∃ t, ts[r.1 - 1]? = some t ∧ t.token = Tag.TK_SEMICOLON) ∧
  (r.2 = ts.length ∨ ∃ t, ts[r.2]? = some t ∧ t.token = Tag.TK_SEMICOLON)

end Spec
open Spec

theorem segments_ne (ts : List Tok) : segments ts ≠ [] := by
  cases ts with
  | nil => simp [segments]
  | cons t ts =>
    unfold segments
    split
    · simp
    · split <;> simp

theorem isSemi_iff (t : Tok) : t.isSemi = true ↔ t.token = Tag.TK_SEMICOLON := by
  unfold Tok.isSemi; simp

theorem segments_prefix (cur ts : List Tok) (h : ∀ t ∈ cur, t.isSemi = false) :
    ∃ s ss, segments ts = s :: ss ∧ segments (cur ++ ts) = (cur ++ s) :: ss := by
  obtain ⟨s, ss, e⟩ : ∃ s ss, segments ts = s :: ss := by
    cases hs : segments ts with
    | nil => exact absurd hs (segments_ne ts)
    | cons s ss => exact ⟨s, ss, rfl⟩
  refine ⟨s, ss, e, ?_⟩
  induction cur with
  | nil => simpa using e
  | cons c cur ih =>
    have hc := h c (by simp)
    have := ih (fun t ht => h t (by simp [ht]))
    have hn : ¬ c.token = Tag.TK_SEMICOLON := by
      rw [← isSemi_iff, hc]; simp
    simp only [List.cons_append, segments, hn, if_false, this]

/-- What the loop of `init_stmts` computes from the middle of a token list. -/
theorem initStmtsGo_spec (ts : List Tok) : ∀ (pre cur : List Tok) (beg : Option Nat),
    (∀ t ∈ cur, t.isSemi = false) →
    ((cur = [] ∧ beg = none) ∨ (cur ≠ [] ∧ beg = some pre.length)) →
    (initStmtsGo (pre.length + cur.length) beg ts).1.map (slice (pre ++ cur ++ ts)) =
      (segments (cur ++ ts)).filter (fun s => !s.isEmpty) ∧
    (initStmtsGo (pre.length + cur.length) beg ts).2 = (ts.countP (·.isSemi) : Int) := by
  induction ts with
  | nil =>
    intro pre cur beg hcur hbeg
    obtain ⟨s, ss, e1, e2⟩ := segments_prefix cur [] hcur
    simp only [segments, List.cons.injEq] at e1
    obtain ⟨rfl, rfl⟩ := e1
    rw [e2]
    rcases hbeg with ⟨rfl, rfl⟩ | ⟨hne, rfl⟩
    · simp [initStmtsGo]
    · have : 0 < cur.length := List.length_pos_iff.mpr hne
      have hne2 : pre.length ≠ pre.length + cur.length := by omega
      simp only [initStmtsGo, hne2, ne_eq, not_false_iff, if_true]
      have hemp : cur.isEmpty = false := by cases cur <;> simp at hne ⊢
      simp [slice, hemp]
  | cons t ts ih =>
    intro pre cur beg hcur hbeg
    have hb : beg.getD (pre.length + cur.length) = pre.length := by
      rcases hbeg with ⟨rfl, rfl⟩ | ⟨_, rfl⟩ <;> simp
    by_cases ht : t.isSemi = true
    · have hs := (isSemi_iff t).mp ht
      obtain ⟨s, ss, e1, e2⟩ := segments_prefix cur (t :: ts) hcur
      simp only [segments, hs, if_true, List.cons.injEq] at e1
      obtain ⟨rfl, rfl⟩ := e1
      have := ih (pre ++ cur ++ [t]) [] none (by simp) (Or.inl ⟨rfl, rfl⟩)
      simp only [List.length_append, List.length_singleton, List.length_nil, Nat.add_zero,
        List.append_assoc, List.nil_append, List.singleton_append] at this
      obtain ⟨h1, h2⟩ := this
      have hlen : pre.length + (cur.length + 1) = pre.length + cur.length + 1 := by omega
      rw [hlen] at h1 h2
      simp only [initStmtsGo, ht, if_true, hb, List.append_assoc]
      rw [e2, h2]
      constructor
      · by_cases hc : cur = []
        · subst hc
          simp only [List.length_nil, Nat.add_zero, ne_eq, not_true, if_false, List.append_nil]
          simp only [List.length_nil, Nat.add_zero, List.nil_append] at h1
          rw [List.filter_cons_of_neg (by simp)]
          simpa using h1
        · have hpos : 0 < cur.length := List.length_pos_iff.mpr hc
          have hne2 : pre.length ≠ pre.length + cur.length := by omega
          simp only [ne_eq, hne2, not_false_iff, if_true, List.map_cons, h1, List.append_nil]
          have hemp : cur.isEmpty = false := by cases cur <;> simp at hc ⊢
          rw [List.filter_cons_of_pos (by simp [hemp])]
          congr 1
          simp [slice]
      · simp [ht]
    · have ht' : t.isSemi = false := by simpa using ht
      have := ih pre (cur ++ [t]) (some pre.length) (by
        intro x hx
        rcases List.mem_append.mp hx with h | h
        · exact hcur x h
        · simp at h; rw [h]; exact ht') (Or.inr ⟨by simp, rfl⟩)
      simp only [List.length_append, List.length_singleton, List.append_assoc,
        List.singleton_append] at this
      simp only [initStmtsGo, ht', hb, Bool.false_eq_true, if_false, List.append_assoc]
      rw [show pre.length + cur.length + 1 = pre.length + (cur.length + 1) by omega]
      refine ⟨this.1, ?_⟩
      rw [this.2]
      simp [ht']

/-- Bounds, order and shape of the ranges. -/
theorem initStmtsGo_runs (ts : List Tok) : ∀ (pre cur : List Tok) (beg : Option Nat),
    (∀ t ∈ cur, t.isSemi = false) →
    ((cur = [] ∧ beg = none) ∨ (cur ≠ [] ∧ beg = some pre.length)) →
    (pre = [] ∨ ∃ t, pre.getLast? = some t ∧ t.isSemi = true) →
    (initStmtsGo (pre.length + cur.length) beg ts).1.Pairwise (fun a b => a.2 < b.1) ∧
    (∀ r, r ∈ (initStmtsGo (pre.length + cur.length) beg ts).1 ↔
      pre.length ≤ r.1 ∧ MaximalRun (pre ++ cur ++ ts) r) := by
  induction ts with
  | nil =>
    intro pre cur beg hcur hbeg hpre
    rcases hbeg with ⟨rfl, rfl⟩ | ⟨hne, rfl⟩
    · simp only [initStmtsGo, List.Pairwise.nil, List.not_mem_nil, List.append_nil, true_and]
      intro r
      constructor
      · simp
      · rintro ⟨h1, h2, h3, _⟩; omega
    · have hpos : 0 < cur.length := List.length_pos_iff.mpr hne
      have hne2 : pre.length ≠ pre.length + cur.length := by omega
      simp only [initStmtsGo, hne2, ne_eq, not_false_iff, if_true, List.append_nil,
        List.pairwise_cons, List.not_mem_nil, List.Pairwise.nil, and_true, List.mem_singleton]
      refine ⟨by simp, fun r => ⟨?_, ?_⟩⟩
      · rintro rfl
        refine ⟨Nat.le_refl _, by simp; omega, by simp, ?_, ?_, Or.inl (by simp)⟩
        · intro i t h1 h2 h3
          rw [List.getElem?_append_right h1] at h3
          have := hcur t (List.mem_of_getElem? h3)
          rw [Ne, ← isSemi_iff, this]; simp
        · rcases hpre with rfl | ⟨t, h1, h2⟩
          · left; rfl
          · right
            refine ⟨t, ?_, (isSemi_iff t).mp h2⟩
            have hpl : 0 < pre.length := by
              cases pre with
              | nil => simp at h1
              | cons => simp
            rw [List.getElem?_append_left (by simp; omega), ← List.getLast?_eq_getElem?]
            exact h1
      · rintro ⟨h0, h1, h2, h3, h4, h5⟩
        have hin : ∀ k, pre.length ≤ k → k < pre.length + cur.length →
            ∀ t, (pre ++ cur)[k]? = some t → t.token ≠ Tag.TK_SEMICOLON := by
          intro k k1 k2 t ht
          rw [List.getElem?_append_right k1] at ht
          have := hcur t (List.mem_of_getElem? ht)
          rw [Ne, ← isSemi_iff, this]; simp
        rw [List.length_append] at h2 h5
        have e1 : r.1 = pre.length := by
          rcases h4 with h4 | ⟨t, h4, h4'⟩
          · omega
          · by_contra hlt
            exact hin (r.1 - 1) (by omega) (by omega) t h4 h4'
        have e2 : r.2 = pre.length + cur.length := by
          rcases h5 with h5 | ⟨t, h5, h5'⟩
          · exact h5
          · by_contra hlt
            exact hin r.2 (by omega) (by omega) t h5 h5'
        exact Prod.ext e1 e2
  | cons t ts ih =>
    intro pre cur beg hcur hbeg hpre
    have hb : beg.getD (pre.length + cur.length) = pre.length := by
      rcases hbeg with ⟨rfl, rfl⟩ | ⟨_, rfl⟩ <;> simp
    by_cases ht : t.isSemi = true
    · have hts := (isSemi_iff t).mp ht
      have hgett : (pre ++ (cur ++ t :: ts))[pre.length + cur.length]? = some t := by
        rw [List.getElem?_append_right (by omega), List.getElem?_append_right (by omega)]
        simp
      have hin : ∀ k, pre.length ≤ k → k < pre.length + cur.length →
          ∀ u, (pre ++ (cur ++ t :: ts))[k]? = some u → u.token ≠ Tag.TK_SEMICOLON := by
        intro k k1 k2 u hu
        rw [List.getElem?_append_right k1, List.getElem?_append_left (by omega)] at hu
        have := hcur u (List.mem_of_getElem? hu)
        rw [Ne, ← isSemi_iff, this]; simp
      have := ih (pre ++ cur ++ [t]) [] none (by simp) (Or.inl ⟨rfl, rfl⟩)
        (Or.inr ⟨t, by simp, ht⟩)
      simp only [List.length_append, List.length_singleton, List.length_nil, Nat.add_zero,
        List.append_assoc, List.singleton_append] at this
      obtain ⟨h1, h2⟩ := this
      rw [show pre.length + (cur.length + 1) = pre.length + cur.length + 1 by omega] at h1 h2
      simp only [initStmtsGo, ht, if_true, hb, List.append_assoc]
      -- a run that starts at or after `pre` either is the current one or starts after `t`
      have hcase : ∀ r, pre.length ≤ r.1 → MaximalRun (pre ++ (cur ++ t :: ts)) r →
          (r = (pre.length, pre.length + cur.length) ∧ cur ≠ []) ∨
            pre.length + cur.length + 1 ≤ r.1 := by
        rintro r r0 ⟨r1, r2, r3, r4, r5⟩
        by_cases hlt : pre.length + cur.length + 1 ≤ r.1
        · exact Or.inr hlt
        · left
          have hne : r.1 ≠ pre.length + cur.length := by
            intro e
            exact r3 r.1 t (Nat.le_refl _) r1 (by rw [e]; exact hgett) hts
          have hle : r.2 ≤ pre.length + cur.length := by
            by_contra hgt
            exact r3 (pre.length + cur.length) t (by omega) (by omega) hgett hts
          have e1 : r.1 = pre.length := by
            rcases r4 with r4 | ⟨u, r4, r4'⟩
            · omega
            · by_contra hlt
              exact hin (r.1 - 1) (by omega) (by omega) u r4 r4'
          have e2 : r.2 = pre.length + cur.length := by
            rcases r5 with r5 | ⟨u, r5, r5'⟩
            · simp at r5; omega
            · by_contra hlt
              exact hin r.2 (by omega) (by omega) u r5 r5'
          refine ⟨Prod.ext e1 e2, ?_⟩
          rintro rfl
          simp at e2; omega
      by_cases hc : cur = []
      · subst hc
        simp only [List.length_nil, Nat.add_zero, ne_eq, not_true, if_false]
        simp only [List.length_nil, Nat.add_zero] at h1 h2 hcase
        refine ⟨h1, fun r => ?_⟩
        rw [h2 r]
        constructor
        · rintro ⟨a, b⟩; exact ⟨by omega, b⟩
        · rintro ⟨a, b⟩
          rcases hcase r a b with ⟨_, h⟩ | h
          · exact absurd rfl h
          · exact ⟨h, b⟩
      · have hpos : 0 < cur.length := List.length_pos_iff.mpr hc
        have hne2 : pre.length ≠ pre.length + cur.length := by omega
        simp only [ne_eq, hne2, not_false_iff, if_true, List.pairwise_cons, List.mem_cons]
        refine ⟨⟨?_, h1⟩, fun r => ?_⟩
        · intro r hr
          have := ((h2 r).mp hr).1
          omega
        · constructor
          · rintro (rfl | hr)
            · refine ⟨Nat.le_refl _, by simp; omega, by simp, ?_, ?_,
                Or.inr ⟨t, hgett, hts⟩⟩
              · intro i u h1 h2 h3; exact hin i h1 h2 u h3
              · rcases hpre with rfl | ⟨u, h1, h2⟩
                · left; rfl
                · right
                  refine ⟨u, ?_, (isSemi_iff u).mp h2⟩
                  have hpl : 0 < pre.length := by
                    cases pre with
                    | nil => simp at h1
                    | cons => simp
                  rw [List.getElem?_append_left (by simp; omega), ← List.getLast?_eq_getElem?]
                  exact h1
            · have := (h2 r).mp hr
              exact ⟨by omega, this.2⟩
          · rintro ⟨a, b⟩
            rcases hcase r a b with ⟨h, _⟩ | h
            · exact Or.inl h
            · exact Or.inr ((h2 r).mpr ⟨h, b⟩)
    · have ht' : t.isSemi = false := by simpa using ht
      have := ih pre (cur ++ [t]) (some pre.length) (by
        intro x hx
        rcases List.mem_append.mp hx with h | h
        · exact hcur x h
        · simp at h; rw [h]; exact ht') (Or.inr ⟨by simp, rfl⟩) hpre
      simp only [List.length_append, List.length_singleton, List.append_assoc,
        List.singleton_append] at this
      simp only [initStmtsGo, ht', hb, Bool.false_eq_true, if_false, List.append_assoc]
      rw [show pre.length + cur.length + 1 = pre.length + (cur.length + 1) by omega]
      exact this

/-- **C16** (the statements) The statements are, in order, the token lists between semicolons that
are not empty. -/
theorem C16_statements (l : LLine) :
    l.initStmts.stmts.map (slice l.frags) = (segments l.frags).filter (fun s => !s.isEmpty) ∧
    l.initStmts.frags = l.frags := by
  have := initStmtsGo_spec l.frags [] [] none (by simp) (Or.inl ⟨rfl, rfl⟩)
  exact ⟨by simpa [LLine.initStmts] using this.1, rfl⟩

/-- **C16** (their positions) A range of positions is a statement exactly when it is a maximal
non-empty run of tokens without a semicolon, and the ranges are in increasing order. -/
theorem C16_ranges (l : LLine) :
    l.initStmts.stmts.Pairwise (fun a b => a.2 < b.1) ∧
    ∀ r, r ∈ l.initStmts.stmts ↔ MaximalRun l.frags r := by
  have := initStmtsGo_runs l.frags [] [] none (by simp) (Or.inl ⟨rfl, rfl⟩) (Or.inl rfl)
  exact ⟨by simpa [LLine.initStmts] using this.1,
    fun r => by simpa [LLine.initStmts] using this.2 r⟩

/-- **C16** (every token) Every token that is no semicolon is in exactly one statement; a semicolon
is in none. -/
theorem C16_cover (l : LLine) (i : Nat) (t : Tok) (h : l.frags[i]? = some t) :
    (t.token ≠ Tag.TK_SEMICOLON → ∃ r, r ∈ l.initStmts.stmts ∧ r.1 ≤ i ∧ i < r.2 ∧
      ∀ r' ∈ l.initStmts.stmts, r'.1 ≤ i → i < r'.2 → r' = r) ∧
    (t.token = Tag.TK_SEMICOLON → ∀ r ∈ l.initStmts.stmts, ¬ (r.1 ≤ i ∧ i < r.2)) := by
  obtain ⟨hp, hiff⟩ := C16_ranges l
  constructor
  · intro ht
    have hlen : i < l.frags.length := (List.getElem?_eq_some_iff.mp h).1
    -- extend the position in both directions
    have left : ∃ b, b ≤ i ∧ (∀ k u, b ≤ k → k ≤ i → l.frags[k]? = some u →
        u.token ≠ Tag.TK_SEMICOLON) ∧
        (b = 0 ∨ ∃ u, l.frags[b - 1]? = some u ∧ u.token = Tag.TK_SEMICOLON) := by
      clear hp hiff
      induction i generalizing t with
      | zero =>
        refine ⟨0, Nat.le_refl _, ?_, Or.inl rfl⟩
        intro k u h1 h2 h3
        obtain rfl : k = 0 := by omega
        rw [h] at h3; simp at h3; rw [← h3]; exact ht
      | succ i ih =>
        obtain ⟨u, hu⟩ : ∃ u, l.frags[i]? = some u := ⟨l.frags[i], List.getElem?_eq_getElem _⟩
        by_cases hs : u.token = Tag.TK_SEMICOLON
        · refine ⟨i + 1, Nat.le_refl _, ?_, Or.inr ⟨u, by simpa using hu, hs⟩⟩
          intro k v h1 h2 h3
          obtain rfl : k = i + 1 := by omega
          rw [h] at h3; simp at h3; rw [← h3]; exact ht
        · obtain ⟨b, hb1, hb2, hb3⟩ := ih u hu hs (by omega)
          refine ⟨b, by omega, ?_, hb3⟩
          intro k v h1 h2 h3
          by_cases hk : k = i + 1
          · subst hk; rw [h] at h3; simp at h3; rw [← h3]; exact ht
          · exact hb2 k v h1 (by omega) h3
    have right : ∀ n j, l.frags.length - j = n → i < j → j ≤ l.frags.length →
        (∀ k u, i ≤ k → k < j → l.frags[k]? = some u → u.token ≠ Tag.TK_SEMICOLON) →
        ∃ e, i < e ∧ e ≤ l.frags.length ∧ (∀ k u, i ≤ k → k < e → l.frags[k]? = some u →
          u.token ≠ Tag.TK_SEMICOLON) ∧
          (e = l.frags.length ∨ ∃ u, l.frags[e]? = some u ∧ u.token = Tag.TK_SEMICOLON) := by
      intro n
      induction n with
      | zero =>
        intro j h1 h2 h3 h4
        exact ⟨j, h2, h3, h4, Or.inl (by omega)⟩
      | succ n ih =>
        intro j h1 h2 h3 h4
        have hj : j < l.frags.length := by omega
        by_cases hs : l.frags[j].token = Tag.TK_SEMICOLON
        · exact ⟨j, h2, h3, h4, Or.inr ⟨_, List.getElem?_eq_getElem hj, hs⟩⟩
        · apply ih (j + 1) (by omega) (by omega) hj
          intro k u k1 k2 k3
          by_cases hk : k = j
          · subst hk; rw [List.getElem?_eq_getElem hj] at k3; simp at k3; rw [← k3]; exact hs
          · exact h4 k u k1 (by omega) k3
    obtain ⟨b, hb1, hb2, hb3⟩ := left
    obtain ⟨e, he1, he2, he3, he4⟩ := right _ (i + 1) rfl (by omega) hlen (by
      intro k u h1 h2 h3
      obtain rfl : k = i := by omega
      exact hb2 k u hb1 (Nat.le_refl _) h3)
    have hmem : (b, e) ∈ l.initStmts.stmts := by
      rw [hiff]
      refine ⟨by simp; omega, he2, ?_, hb3, he4⟩
      intro k u h1 h2 h3
      by_cases hk : k ≤ i
      · exact hb2 k u h1 hk h3
      · exact he3 k u (by omega) h2 h3
    refine ⟨(b, e), hmem, hb1, he1, ?_⟩
    intro r' hr' h1 h2
    obtain ⟨q1, q2, q3, q4, q5⟩ := (hiff r').mp hr'
    have e1 : r'.1 = b := by
      rcases Nat.lt_trichotomy r'.1 b with hlt | heq | hgt
      · rcases hb3 with hb3 | ⟨u, hu, hs⟩
        · omega
        · exact absurd hs (q3 (b - 1) u (by omega) (by omega) hu)
      · exact heq
      · rcases q4 with q4 | ⟨u, hu, hs⟩
        · omega
        · exact absurd hs (hb2 (r'.1 - 1) u (by omega) (by omega) hu)
    have e2 : r'.2 = e := by
      rcases Nat.lt_trichotomy r'.2 e with hlt | heq | hgt
      · rcases q5 with q5 | ⟨u, hu, hs⟩
        · omega
        · exact absurd hs (he3 r'.2 u (by omega) hlt hu)
      · exact heq
      · rcases he4 with he4 | ⟨u, hu, hs⟩
        · omega
        · exact absurd hs (q3 e u (by omega) hgt hu)
    exact Prod.ext e1 e2
  · rintro ht r hr ⟨h1, h2⟩
    exact ((hiff r).mp hr).2.2.1 i t h1 h2 h ht

theorem segments_length (ts : List Tok) :
    (segments ts).length = ts.countP (·.isSemi) + 1 := by
  induction ts with
  | nil => rfl
  | cons t ts ih =>
    by_cases h : t.isSemi = true
    · have := (isSemi_iff t).mp h
      simp [segments, this, h, ih]
    · have hn : ¬ t.token = Tag.TK_SEMICOLON := by rw [← isSemi_iff]; exact h
      obtain ⟨s, ss, e⟩ : ∃ s ss, segments ts = s :: ss := by
        cases hs : segments ts with
        | nil => exact absurd hs (segments_ne ts)
        | cons s ss => exact ⟨s, ss, rfl⟩
      rw [e] at ih
      simp only [segments, hn, if_false, e]
      rw [List.countP_cons_of_neg h, ← ih]
      rfl

/-- **C16** (semicolons) `num_semicolons` counts the semicolon tokens. -/
theorem C16_semicolons (l : LLine) :
    l.initStmts.numSemicolons =
      .ok ((l.frags.filter (fun t => t.token = Tag.TK_SEMICOLON)).length : Int) := by
  have h := (initStmtsGo_spec l.frags [] [] none (by simp) (Or.inl ⟨rfl, rfl⟩)).2
  simp only [List.length_nil, Nat.add_zero] at h
  have e : (fun t : Tok => decide (t.token = Tag.TK_SEMICOLON)) = (fun t => t.isSemi) := by
    funext t; rw [Bool.eq_iff_iff, decide_eq_true_iff, isSemi_iff]
  unfold LLine.numSemicolons LLine.initStmts
  simp only [h]
  rw [if_pos (by omega), e, List.countP_eq_length_filter]

/-- **C16** (empty statements) `has_empty_statements` is true exactly when there is a semicolon with
nothing before it or nothing behind it. -/
theorem C16_has_empty (l : LLine) :
    ∃ b, l.initStmts.hasEmptyStatements = .ok b ∧
      (b = true ↔ (∃ t ∈ l.frags, t.token = Tag.TK_SEMICOLON) ∧ [] ∈ segments l.frags) := by
  have h1 := initStmtsGo_spec l.frags [] [] none (by simp) (Or.inl ⟨rfl, rfl⟩)
  simp only [List.length_nil, Nat.add_zero, List.nil_append] at h1
  obtain ⟨h1, h2⟩ := h1
  have hlen := congrArg List.length h1
  rw [List.length_map] at hlen
  have hseg := segments_length l.frags
  refine ⟨decide ((l.frags.countP (·.isSemi) : Int) > 0) &&
    decide ((l.frags.countP (·.isSemi) : Int) ≥ (initStmtsGo 0 none l.frags).1.length), ?_, ?_⟩
  · unfold LLine.hasEmptyStatements LLine.initStmts
    simp only [h2]
    rw [if_pos (by omega)]
  · have hall : ((segments l.frags).filter (fun s => !s.isEmpty)).length =
        (segments l.frags).length ↔ ¬ [] ∈ segments l.frags := by
      rw [List.length_filter_eq_length_iff]
      constructor
      · intro h hm; have := h [] hm; simp at this
      · intro h s hs
        cases s with
        | nil => exact absurd hs h
        | cons => simp
    have hle : ((segments l.frags).filter (fun s => !s.isEmpty)).length ≤
        (segments l.frags).length := List.length_filter_le _ _
    have hex : 0 < l.frags.countP (·.isSemi) ↔ ∃ t ∈ l.frags, t.token = Tag.TK_SEMICOLON := by
      rw [List.countP_pos_iff]
      simp only [isSemi_iff]
    rw [Bool.and_eq_true, decide_eq_true_iff, decide_eq_true_iff, ← hex]
    constructor
    · rintro ⟨a, b⟩
      refine ⟨by omega, ?_⟩
      by_contra hn
      have := hall.mpr hn
      omega
    · rintro ⟨a, b⟩
      have : ¬ ((segments l.frags).filter (fun s => !s.isEmpty)).length =
        (segments l.frags).length := fun h => hall.mp h b
      omega

/-- A token for examples. -/
def tokOf (tag : Int) (s : String) : Tok := { token := tag, line := 1, pos := 1, text := s.toList }

example : ({ frags := [tokOf Tag.TK_NAME "a", tokOf Tag.TK_SEMICOLON ";", tokOf Tag.TK_SEMICOLON ";",
    tokOf Tag.TK_NAME "b", tokOf Tag.TK_NAME "c"] } : LLine).initStmts.stmts = [(0, 1), (3, 5)] := by
  decide
example : ({ frags := [tokOf Tag.TK_NAME "a", tokOf Tag.TK_SEMICOLON ";"] } :
    LLine).initStmts.hasEmptyStatements = .ok true := by decide

end FLPR
