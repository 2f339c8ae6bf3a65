import Verif.StmtParser.FormSim
/-! # What a form with peeks accepts is in the language of the form -/

namespace FLPR
namespace SP
open Spec

/-- A closing symbol. -/
def closer (t : Int) : Prop := t = Tag.TK_PARENR ∨ t = Tag.TK_BRACKETR

/-- The rest of a nested sequence. -/
inductive Tail : List Int → Prop where
  | wn {a : List Int} : WellNested a → Tail a
  | close {a b : List Int} {c : Int} : WellNested a → closer c → Tail b → Tail (a ++ c :: b)

theorem wn_append {a b : List Int} (ha : WellNested a) (hb : WellNested b) : WellNested (a ++ b) := by
  induction ha with
  | nil => exact hb
  | plain hp _ ih => exact .plain hp ih
  | @paren x y hx _ _ ih =>
    have := WellNested.paren hx ih
    simpa using this
  | @bracket x y hx _ _ ih =>
    have := WellNested.bracket hx ih
    simpa using this

theorem tail_append {a b : List Int} (ha : Tail a) (hb : Tail b) : Tail (a ++ b) := by
  induction ha with
  | wn h =>
    cases hb with
    | wn h2 => exact .wn (wn_append h h2)
    | close h2 hc ht =>
      rw [← List.append_assoc]
      exact .close (wn_append h h2) hc ht
  | close h hc _ ih =>
    rw [List.append_assoc, List.cons_append]
    exact .close h hc ih

theorem tail_drop {l : List Int} (h : WellNested l) : ∀ i, Tail (l.drop i) := by
  have grp : ∀ (o c : Int) (a b : List Int), closer c → WellNested (o :: (a ++ c :: b)) →
      WellNested a → WellNested b → (∀ i, Tail (a.drop i)) → (∀ i, Tail (b.drop i)) →
      ∀ i, Tail ((o :: (a ++ c :: b)).drop i) := by
    intro o c a b hc hw ha hb iha ihb i
    cases i with
    | zero => exact .wn hw
    | succ i =>
      rw [List.drop_succ_cons, List.drop_append]
      by_cases hi : i ≤ a.length
      · rw [show i - a.length = 0 by omega, List.drop_zero]
        exact tail_append (iha i) (Tail.close .nil hc (.wn hb))
      · rw [List.drop_eq_nil_of_le (by omega), List.nil_append,
          show i - a.length = (i - a.length - 1) + 1 by omega, List.drop_succ_cons]
        exact ihb _
  induction h with
  | nil => intro i; simp; exact .wn .nil
  | @plain t ts hp hts ih =>
    intro i
    cases i with
    | zero => exact .wn (.plain hp hts)
    | succ i => exact ih i
  | @paren a b ha hb iha ihb => exact grp _ _ a b (.inl rfl) (.paren ha hb) ha hb iha ihb
  | @bracket a b ha hb iha ihb => exact grp _ _ a b (.inr rfl) (.bracket ha hb) ha hb iha ihb

/-- A final piece of a properly nested sequence. -/
def Nested (ts : List Int) : Prop := ∃ l i, WellNested l ∧ ts = l.drop i

theorem Nested.tail {ts : List Int} (h : Nested ts) : Tail ts := by
  obtain ⟨l, i, hl, rfl⟩ := h
  exact tail_drop hl i

theorem Nested.suffix {a b : List Int} (h : Nested (a ++ b)) : Nested b := by
  obtain ⟨l, i, hl, he⟩ := h
  refine ⟨l, i + a.length, hl, ?_⟩
  rw [← List.drop_drop, ← he, List.drop_left]

theorem good_nested {s : Strm} (h : GoodStmt s) : Nested ((restOf s).map (·.token)) := by
  obtain ⟨base, hb, hw⟩ := h.nested
  have hlo := h.lo_pos
  refine ⟨_, s.pos - base, hw, ?_⟩
  rw [restOf_map, slice_drop (by omega)]

/-! ### Expressions -/

theorem scanN_skip {a : List Int} (h : WellNested a) : ∀ (k : Nat) (rest : List Int),
    PForm.scanN (a ++ rest) ((k + 2 : Nat) : Int) =
      (PForm.scanN rest ((k + 2 : Nat) : Int)).map (· + a.length) := by
  induction h with
  | nil => intro k rest; simp
  | @plain t ts hp _ ih =>
    intro k rest
    rw [List.cons_append, PForm.scanN]
    have : breakStep t ((k + 2 : Nat) : Int) = .take ((k + 2 : Nat) : Int) := by
      have h1 : ¬ ((k + 2 : Nat) : Int) = 1 := by omega
      obtain ⟨a1, a2, a3, a4⟩ := hp
      simp only [breakStep, a1, a2, a3, a4, h1, if_false]
    rw [this]
    simp only
    rw [ih k rest, Option.map_map]
    rfl
  | @paren a b _ _ iha ihb =>
    intro k rest
    have h1 : breakStep Tag.TK_PARENL ((k + 2 : Nat) : Int) = .take ((k + 1 + 2 : Nat) : Int) := by
      simp [breakStep]; omega
    have h2 : breakStep Tag.TK_PARENR ((k + 1 + 2 : Nat) : Int) = .take ((k + 2 : Nat) : Int) := by
      have : ¬ ((k + 1 + 2 : Nat) : Int) - 1 = 0 := by omega
      rw [breakStep, if_neg (by decide), if_neg (by decide), if_pos rfl, if_neg this]
      congr 1; omega
    rw [List.cons_append, PForm.scanN, h1]
    simp only
    rw [List.append_assoc, iha (k + 1), List.cons_append, PForm.scanN, h2]
    simp only
    rw [ihb k rest, Option.map_map, Option.map_map, Option.map_map]
    congr 1
    funext x
    simp only [Function.comp_apply, List.length_cons, List.length_append]
    omega
  | @bracket a b _ _ iha ihb =>
    intro k rest
    have h1 : breakStep Tag.TK_BRACKETL ((k + 2 : Nat) : Int) = .take ((k + 1 + 2 : Nat) : Int) := by
      rw [breakStep, if_neg (by decide), if_pos rfl]
      congr 1
    have h2 : breakStep Tag.TK_BRACKETR ((k + 1 + 2 : Nat) : Int) = .take ((k + 2 : Nat) : Int) := by
      have : ¬ ((k + 1 + 2 : Nat) : Int) - 1 = 0 := by omega
      rw [breakStep, if_neg (by decide), if_neg (by decide), if_neg (by decide), if_pos rfl, if_neg this]
      congr 1; omega
    rw [List.cons_append, PForm.scanN, h1]
    simp only
    rw [List.append_assoc, iha (k + 1), List.cons_append, PForm.scanN, h2]
    simp only
    rw [ihb k rest, Option.map_map, Option.map_map, Option.map_map]
    congr 1
    funext x
    simp only [Function.comp_apply, List.length_cons, List.length_append]
    omega

/-- A group at the outer level. -/
theorem scanN_group {o c : Int} {a rest : List Int} (hw : WellNested a)
    (hoc : (o = Tag.TK_PARENL ∧ c = Tag.TK_PARENR) ∨ (o = Tag.TK_BRACKETL ∧ c = Tag.TK_BRACKETR)) :
    PForm.scanN (o :: (a ++ c :: rest)) 1 = (PForm.scanN rest 1).map (· + (a.length + 2)) := by
  have h1 : breakStep o 1 = .take 2 := by
    rcases hoc with ⟨rfl, _⟩ | ⟨rfl, _⟩ <;> rfl
  have h2 : breakStep c 2 = .take 1 := by
    rcases hoc with ⟨_, rfl⟩ | ⟨_, rfl⟩ <;> rfl
  rw [PForm.scanN, h1]
  simp only
  have := scanN_skip hw 0 (c :: rest)
  rw [show ((0 + 2 : Nat) : Int) = 2 from rfl] at this
  rw [this, PForm.scanN, h2]
  simp only
  rw [Option.map_map, Option.map_map]
  congr 1
  funext x
  simp only [Function.comp_apply]
  omega

theorem scanN_unbroken {w : List Int} (h : Unbroken w) : ∀ rest, (∀ t ∈ w, t ≠ Tag.BAD) →
    PForm.scanN (w ++ rest) 1 = (PForm.scanN rest 1).map (· + w.length) := by
  induction h with
  | nil => intro rest _; simp
  | @plain t ts hp h1 h2 h3 _ ih =>
    intro rest hb
    have hi : inert t = true := by
      have := hb t (by simp)
      obtain ⟨a1, a2, a3, a4⟩ := hp
      simp [inert, *]
    rw [List.cons_append, PForm.scanN, breakStep_inert hi]
    simp only
    rw [ih rest (fun u hu => hb u (by simp [hu])), Option.map_map]
    rfl
  | @paren a b hw _ ih =>
    intro rest hb
    rw [List.cons_append, List.append_assoc, List.cons_append, scanN_group hw (.inl ⟨rfl, rfl⟩),
      ih rest (fun u hu => hb u (by simp [hu])), Option.map_map]
    congr 1
    funext x
    simp only [Function.comp_apply, List.length_cons, List.length_append]
    omega
  | @bracket a b hw _ ih =>
    intro rest hb
    rw [List.cons_append, List.append_assoc, List.cons_append, scanN_group hw (.inr ⟨rfl, rfl⟩),
      ih rest (fun u hu => hb u (by simp [hu])), Option.map_map]
    congr 1
    funext x
    simp only [Function.comp_apply, List.length_cons, List.length_append]
    omega

theorem scanN_wn {a : List Int} (h : WellNested a) : ∀ rest m, PForm.scanN (a ++ rest) 1 = some m →
    (∃ a1 a2, a = a1 ++ a2 ∧ m = a1.length ∧ Unbroken a1) ∨
    (Unbroken a ∧ ∃ m', PForm.scanN rest 1 = some m' ∧ m = a.length + m') := by
  have grp : ∀ (o c : Int) (a b : List Int),
      ((o = Tag.TK_PARENL ∧ c = Tag.TK_PARENR) ∨ (o = Tag.TK_BRACKETL ∧ c = Tag.TK_BRACKETR)) →
      (∀ y, Unbroken y → Unbroken (o :: (a ++ c :: y))) →
      WellNested a →
      (∀ rest m, PForm.scanN (b ++ rest) 1 = some m →
        (∃ a1 a2, b = a1 ++ a2 ∧ m = a1.length ∧ Unbroken a1) ∨
        (Unbroken b ∧ ∃ m', PForm.scanN rest 1 = some m' ∧ m = b.length + m')) →
      ∀ rest m, PForm.scanN (o :: (a ++ c :: b) ++ rest) 1 = some m →
        (∃ a1 a2, o :: (a ++ c :: b) = a1 ++ a2 ∧ m = a1.length ∧ Unbroken a1) ∨
        (Unbroken (o :: (a ++ c :: b)) ∧ ∃ m', PForm.scanN rest 1 = some m' ∧
          m = (o :: (a ++ c :: b)).length + m') := by
    intro o c a b hoc hu hw ih rest m h
    rw [List.cons_append, List.append_assoc, List.cons_append, scanN_group hw hoc] at h
    obtain ⟨m0, h1, rfl⟩ := Option.map_eq_some_iff.mp h
    rcases ih rest m0 h1 with ⟨a1, a2, rfl, rfl, h4⟩ | ⟨h2, m', h3, rfl⟩
    · refine .inl ⟨o :: (a ++ c :: a1), a2, by simp, ?_, hu _ h4⟩
      simp only [List.length_cons, List.length_append]; omega
    · refine .inr ⟨hu _ h2, m', h3, ?_⟩
      simp only [List.length_cons, List.length_append]; omega
  induction h with
  | nil => intro rest m h; exact .inr ⟨.nil, m, h, by simp⟩
  | @plain t ts hp _ ih =>
    intro rest m h
    rw [List.cons_append, PForm.scanN] at h
    obtain ⟨a1, a2, a3, a4⟩ := hp
    by_cases hb : inert t = true
    · rw [breakStep_inert hb] at h
      simp only at h
      obtain ⟨m0, h1, rfl⟩ := Option.map_eq_some_iff.mp h
      simp only [inert, Bool.and_eq_true, bne_iff_ne, ne_eq] at hb
      obtain ⟨⟨⟨_, h6⟩, h7⟩, h8⟩ := hb
      rcases ih rest m0 h1 with ⟨b1, b2, rfl, rfl, h4⟩ | ⟨h2, m', h3, rfl⟩
      · exact .inl ⟨t :: b1, b2, by simp, by simp, .plain ⟨a1, a2, a3, a4⟩ h6 h7 h8 h4⟩
      · refine .inr ⟨.plain ⟨a1, a2, a3, a4⟩ h6 h7 h8 h2, m', h3, ?_⟩
        simp only [List.length_cons]; omega
    · simp only [inert, a1, a2, a3, a4, ne_eq, not_false_eq_true, bne, Bool.and_eq_true,
        Bool.not_eq_true', beq_eq_false_iff_ne, not_and, Decidable.not_not, true_and] at hb
      have : breakStep t 1 = .stop ∨ breakStep t 1 = .fail := by
        simp only [breakStep, a1, a2, a3, a4, if_false, if_true]
        by_cases c1 : t = Tag.BAD
        · simp [c1]
        · by_cases c2 : t = Tag.TK_COMMA
          · simp [c2]
          · by_cases c3 : t = Tag.TK_COLON
            · simp [c3]
            · have c4 := hb ⟨⟨c1, c2⟩, c3⟩
              subst c4
              exact .inr rfl
      rcases this with h1 | h1
      · rw [h1] at h
        injection h with h
        exact .inl ⟨[], t :: ts, rfl, by simp [← h], .nil⟩
      · rw [h1] at h; cases h
  | @paren a b hw _ _ ihb => exact grp _ _ a b (.inl ⟨rfl, rfl⟩) (fun y hy => .paren hw hy) hw ihb
  | @bracket a b hw _ _ ihb => exact grp _ _ a b (.inr ⟨rfl, rfl⟩) (fun y hy => .bracket hw hy) hw ihb

theorem scanN_tail {ts : List Int} (h : Tail ts) {m : Nat} (hm : PForm.scanN ts 1 = some m) :
    m ≤ ts.length ∧ Unbroken (ts.take m) := by
  have key : ∀ a rest, WellNested a → (∀ m, PForm.scanN rest 1 = some m → m = 0) →
      PForm.scanN (a ++ rest) 1 = some m → m ≤ (a ++ rest).length ∧ Unbroken ((a ++ rest).take m) := by
    intro a rest hw hr h
    rcases scanN_wn hw rest m h with ⟨a1, a2, rfl, rfl, h4⟩ | ⟨h2, m', h3, rfl⟩
    · refine ⟨by simp, ?_⟩
      rw [List.append_assoc, List.take_left]; exact h4
    · have := hr m' h3
      subst this
      refine ⟨by simp, ?_⟩
      rw [Nat.add_zero, List.take_left]; exact h2
  cases h with
  | wn hw =>
    have := key ts [] hw (fun m h => by injection h with h; exact h.symm) (by simpa using hm)
    simpa using this
  | @close a b c hw hc _ =>
    refine key a (c :: b) hw (fun m h => ?_) hm
    rw [PForm.scanN] at h
    have : breakStep c 1 = .stop := by rcases hc with rfl | rfl <;> rfl
    rw [this] at h
    injection h with h; exact h.symm

theorem runExprL_sound {ts r : List Tok} (hn : Nested (ts.map (·.token)))
    (h : PForm.runExprL ts = some r) : ∃ w, ts = w ++ r ∧ IsExpr (w.map (·.token)) := by
  rw [PForm.runExprL] at h
  split at h
  · cases h
  · next hh =>
    split at h
    · cases h
    · cases h
    · next n hs =>
      injection h with h; subst h
      obtain ⟨h1, h2⟩ := scanN_tail hn.tail hs
      refine ⟨ts.take (n + 1), (List.take_append_drop _ _).symm, ?_, ?_⟩
      · rw [List.map_take]; exact h2
      · cases ts with
        | nil => simp at h1
        | cons a ts =>
          refine ⟨a.token, (ts.take n).map (·.token), by simp, ?_, ?_⟩
          · intro he; exact hh (.inl he)
          · intro he; exact hh (.inr he)

/-- Where expressions end. -/
def exprStop (t : Int) : Bool :=
  t == Tag.TK_COMMA || t == Tag.TK_COLON || t == Tag.TK_PARENR || t == Tag.TK_BRACKETR || t == Tag.BAD

theorem scanN_stop {u : List Tok} (h : exprStop (PForm.headTag u) = true) :
    PForm.scanN (u.map (·.token)) 1 = some 0 := by
  cases u with
  | nil => rfl
  | cons a u =>
    rw [List.map_cons, PForm.scanN]
    have : breakStep a.token 1 = .stop := by
      simp only [PForm.headTag, exprStop, Bool.or_eq_true, beq_iff_eq] at h
      rcases h with (((h | h) | h) | h) | h <;> rw [h] <;> rfl
    rw [this]

theorem runExprL_complete {w u : List Tok} (hb : ∀ a ∈ w, a.token ≠ Tag.BAD)
    (h : IsExpr (w.map (·.token))) (hu : exprStop (PForm.headTag u) = true) :
    PForm.runExprL (w ++ u) = some u := by
  obtain ⟨h1, t, r, h2, h3, h4⟩ := h
  cases w with
  | nil => cases h2
  | cons a w =>
    have ha : a.token = t := by injection h2
    rw [PForm.runExprL, if_neg (by simp [PForm.headTag, ha, h3, h4]), List.map_append,
      scanN_unbroken h1 _ (by
        intro t ht
        obtain ⟨b, hb', rfl⟩ := List.mem_map.mp ht
        exact hb b hb'), scanN_stop hu]
    simp only [Option.map_some, List.map_cons, List.length_cons, List.length_map, Nat.zero_add]
    rw [List.cons_append, List.drop_succ_cons, List.drop_left]

/-! ### Groups -/

theorem scanP_skip {a : List Int} (h : WellNested a) : ∀ (k : Nat) (rest : List Int),
    PForm.scanP (a ++ rest) (k + 1) = PForm.scanP rest (k + 1) + a.length := by
  induction h with
  | nil => intro k rest; simp
  | @plain t ts hp _ ih =>
    intro k rest
    rw [List.cons_append, PForm.scanP, if_neg hp.1, if_neg hp.2.1, ih, List.length_cons]
    omega
  | @paren a b _ _ iha ihb =>
    intro k rest
    rw [List.cons_append, PForm.scanP, if_pos rfl, List.append_assoc, iha (k + 1), List.cons_append,
      PForm.scanP, if_neg (by decide), if_pos rfl, ihb k rest, List.length_cons, List.length_append,
      List.length_cons]
    omega
  | @bracket a b _ _ iha ihb =>
    intro k rest
    rw [List.cons_append, PForm.scanP, if_neg (by decide), if_neg (by decide), List.append_assoc,
      iha k, List.cons_append, PForm.scanP, if_neg (by decide), if_neg (by decide), ihb k rest,
      List.length_cons, List.length_append, List.length_cons]
    omega

theorem scanP_close {a rest : List Int} (h : WellNested a) :
    PForm.scanP (a ++ Tag.TK_PARENR :: rest) 1 = a.length + 1 := by
  rw [scanP_skip h 0, PForm.scanP, if_neg (by decide), if_pos rfl]
  have : PForm.scanP rest 0 = 0 := by cases rest <;> rfl
  rw [this]; omega

theorem wn_open {l ts : List Int} (h : WellNested l) : l = Tag.TK_PARENL :: ts →
    ∃ a b, WellNested a ∧ ts = a ++ Tag.TK_PARENR :: b := by
  intro he
  cases h with
  | nil => cases he
  | plain hp _ => injection he with he; exact absurd he hp.1
  | @paren a b ha _ => injection he with _ he; exact ⟨a, b, ha, he.symm⟩
  | bracket _ _ => injection he with he; exact absurd he (by decide)

theorem tail_open {ts : List Int} (h : Tail (Tag.TK_PARENL :: ts)) :
    ∃ a b, WellNested a ∧ ts = a ++ Tag.TK_PARENR :: b := by
  generalize he : Tag.TK_PARENL :: ts = l at h
  cases h with
  | wn hw => exact wn_open hw he.symm
  | @close a b c hw hc _ =>
    cases a with
    | nil =>
      injection he with he _
      rcases hc with rfl | rfl
      · exact absurd he (by decide)
      · exact absurd he (by decide)
    | cons x a =>
      rw [List.cons_append] at he
      injection he with h1 h2
      subst h1
      obtain ⟨a', b', h3, h4⟩ := wn_open hw rfl
      exact ⟨a', b' ++ c :: b, h3, by rw [h2, h4]; simp⟩

theorem runGroupL_sound {ts r : List Tok} (hn : Nested (ts.map (·.token)))
    (h : PForm.runGroupL ts = some r) : ∃ w, ts = w ++ r ∧ IsGroup (w.map (·.token)) := by
  cases ts with
  | nil => cases h
  | cons a ts =>
    rw [PForm.runGroupL] at h
    split at h
    · next hl =>
      injection h with h; subst h
      have ht := hn.tail
      rw [List.map_cons, hl] at ht
      obtain ⟨x, y, hx, hts⟩ := tail_open ht
      rw [hts, scanP_close hx]
      refine ⟨a :: ts.take (x.length + 1), by simp, x, hx, ?_⟩
      rw [List.map_cons, hl, List.map_take, hts, List.take_append]
      simp [List.take_of_length_le]
    · cases h

theorem runGroupL_complete {w u : List Tok} (h : IsGroup (w.map (·.token))) :
    PForm.runGroupL (w ++ u) = some u := by
  obtain ⟨a, ha, he⟩ := h
  cases w with
  | nil => cases he
  | cons x w =>
    rw [List.map_cons] at he
    injection he with h1 h2
    rw [List.cons_append, PForm.runGroupL, if_pos h1, List.map_append, h2, List.append_assoc,
      List.cons_append, scanP_close ha]
    have : w.length = a.length + 1 := by
      have := congrArg List.length h2
      simpa using this
    rw [← this, List.drop_left]

/-! ### Soundness -/

/-- The form without the parts that only look. -/
def PForm.erase : PForm → Form
  | .eps => .empty
  | .never => .never
  | .tok t => .word t
  | .name => .name
  | .letter => .letter
  | .spelled w => .spelled w
  | .expr => .expr
  | .group => .group
  | .listName => .name
  | .seq a b => .seq a.erase b.erase
  | .alt a b => .alt a.erase b.erase
  | .star a => .star a.erase
  | .peek _ => .empty
  | .notPeek _ => .empty

/-- The same with names other than some keywords. -/
def PForm.eraseBut (ex : List Int) : PForm → Form
  | .eps => .empty
  | .never => .never
  | .tok t => .word t
  | .name => .nameBut ex
  | .letter => .letter
  | .spelled w => .spelled w
  | .expr => .expr
  | .group => .group
  | .listName => .nameBut ex
  | .seq a b => .seq (a.eraseBut ex) (b.eraseBut ex)
  | .alt a b => .alt (a.eraseBut ex) (b.eraseBut ex)
  | .star a => .star (a.eraseBut ex)
  | .peek _ => .empty
  | .notPeek _ => .empty

theorem eraseBut_nil : ∀ (F : PForm) (w : List Tok), (F.eraseBut []).Is w ↔ F.erase.Is w := by
  intro F
  induction F with
  | name => intro w; simp [PForm.eraseBut, PForm.erase, Form.Is]
  | listName => intro w; simp [PForm.eraseBut, PForm.erase, Form.Is]
  | seq a b iha ihb => intro w; simp only [PForm.eraseBut, PForm.erase, Form.Is, iha, ihb]
  | alt a b iha ihb => intro w; simp only [PForm.eraseBut, PForm.erase, Form.Is, iha, ihb]
  | star a iha => intro w; simp only [PForm.eraseBut, PForm.erase, Form.Is, iha]
  | _ => intro w; rfl

theorem take1_sound {q : Tok → Bool} {ts r : List Tok} (h : PForm.take1 q ts = some r) :
    ∃ a, ts = [a] ++ r ∧ q a = true := by
  cases ts with
  | nil => cases h
  | cons a ts =>
    rw [PForm.take1] at h
    split at h
    · next hq => injection h with h; subst h; exact ⟨a, rfl, hq⟩
    · cases h

theorem run_sound : ∀ (F : PForm) (ts r : List Tok), Nested (ts.map (·.token)) → F.run ts = some r →
    ∃ w, ts = w ++ r ∧ F.erase.Is w := by
  intro F
  induction F with
  | eps => intro ts r _ h; injection h with h; subst h; exact ⟨[], rfl, rfl⟩
  | never => intro ts r _ h; cases h
  | tok t =>
    intro ts r _ h
    obtain ⟨a, h1, h2⟩ := take1_sound h
    exact ⟨[a], h1, a, rfl, by simpa using h2⟩
  | name =>
    intro ts r _ h
    obtain ⟨a, h1, h2⟩ := take1_sound h
    exact ⟨[a], h1, a, rfl, by simpa using h2⟩
  | letter =>
    intro ts r _ h
    obtain ⟨a, h1, h2⟩ := take1_sound h
    exact ⟨[a], h1, a, rfl, by simpa using h2⟩
  | spelled w =>
    intro ts r _ h
    obtain ⟨a, h1, h2⟩ := take1_sound h
    exact ⟨[a], h1, a, rfl, by simpa using h2⟩
  | expr => intro ts r hn h; exact runExprL_sound hn h
  | group => intro ts r hn h; exact runGroupL_sound hn h
  | listName =>
    intro ts r _ h
    rw [PForm.run] at h
    obtain ⟨m, h1, h2⟩ := Option.bind_eq_some_iff.mp h
    split at h2
    · injection h2 with h2; subst h2
      obtain ⟨a, h1, h2⟩ := take1_sound h1
      exact ⟨[a], h1, a, rfl, by simpa using h2⟩
    · cases h2
  | seq a b iha ihb =>
    intro ts r hn h
    rw [PForm.run] at h
    obtain ⟨m, h1, h2⟩ := Option.bind_eq_some_iff.mp h
    obtain ⟨u, rfl, hu⟩ := iha _ _ hn h1
    obtain ⟨v, rfl, hv⟩ := ihb _ _ (by rw [List.map_append] at hn; exact hn.suffix) h2
    exact ⟨u ++ v, by simp, u, v, rfl, hu, hv⟩
  | alt a b iha ihb =>
    intro ts r hn h
    rw [PForm.run] at h
    split at h
    · next r' hr =>
      injection h with h; subst h
      obtain ⟨w, h1, h2⟩ := iha _ _ hn hr
      exact ⟨w, h1, .inl h2⟩
    · obtain ⟨w, h1, h2⟩ := ihb _ _ hn h
      exact ⟨w, h1, .inr h2⟩
  | star a ih =>
    intro ts r hn h
    rw [PForm.run] at h
    injection h with h
    have key : ∀ n ts r, Nested (ts.map (·.token)) → PForm.starL a.run n ts = r →
        ∃ w, ts = w ++ r ∧ (Form.star a.erase).Is w := by
      intro n
      induction n with
      | zero => intro ts r _ h; subst h; exact ⟨[], rfl, [], rfl, by simp⟩
      | succ n ihn =>
        intro ts r hn h
        rw [PForm.starL] at h
        split at h
        · subst h; exact ⟨[], rfl, [], rfl, by simp⟩
        · next r' hr =>
          split at h
          · next hlt =>
            obtain ⟨u, rfl, hu⟩ := ih _ _ hn hr
            obtain ⟨w, rfl, ps, rfl, hps⟩ := ihn _ _ (by rw [List.map_append] at hn; exact hn.suffix) h
            refine ⟨u ++ ps.flatten, by simp, u :: ps, by simp, ?_⟩
            intro q hq
            rcases List.mem_cons.mp hq with rfl | hq
            · refine ⟨?_, hu⟩
              rintro rfl
              simp at hlt
            · exact hps q hq
          · subst h; exact ⟨[], rfl, [], rfl, by simp⟩
    exact key _ _ _ hn h
  | peek t =>
    intro ts r _ h
    rw [PForm.run] at h
    split at h
    · injection h with h; subst h; exact ⟨[], rfl, rfl⟩
    · cases h
  | notPeek t =>
    intro ts r _ h
    rw [PForm.run] at h
    split at h
    · cases h
    · injection h with h; subst h; exact ⟨[], rfl, rfl⟩

end SP
end FLPR
