import Verif.Lexer.Words
/-!
# The tag of a token agrees with its spelling (C51)

The specification refers to the table of printable names of the tags (Syntax_Tags_Defs.hh), not to the
rules of the scanner.
-/

namespace FLPR
open Flex RE

namespace Spec

/-- The printable name of a tag, in lower case, and its kind. -/
def tagName (t : Int) : Option Str := (Tag.table[t.toNat]?).map (fun x => x.1.toList.map lowChar)
def tagKind (t : Int) : Option Int := (Tag.table[t.toNat]?).map (·.2)

/-- The old spellings of the relational operators. -/
def oldRelation : List (String × String) :=
  [(".eq.", "=="), (".ne.", "/="), (".lt.", "<"), (".le.", "<="), (".gt.", ">"), (".ge.", ">=")]

/-- The text of a name. -/
def NameText (s : Str) : Prop :=
  ∃ c t, s = c :: t ∧ isLetter c = true ∧ ∀ x ∈ t, isWord x = true
def DigitText (s : Str) : Prop := s ≠ [] ∧ ∀ c ∈ s, isDigit c = true
/-- The text of a kind parameter. -/
def KindText (s : Str) : Prop := DigitText s ∨ NameText s
/-- Nothing, or an underscore and a kind parameter. -/
def KindSuffix (s : Str) : Prop := s = [] ∨ ∃ k, s = '_' :: k ∧ KindText k
/-- Nothing, or a kind parameter and an underscore. -/
def KindBefore (s : Str) : Prop := s = [] ∨ ∃ k, s = k ++ ['_'] ∧ KindText k
/-- The text between the delimiters of a character literal: delimiters come in pairs. -/
inductive Quoted (q : Char) : Str → Prop where
  | nil : Quoted q []
  | pair {s} : Quoted q s → Quoted q (q :: q :: s)
  | other {c s} : c ≠ q → Quoted q s → Quoted q (c :: s)

/-- `s` may be a token with tag `t`. -/
def Spells (t : Int) (s : Str) : Prop :=
  -- a keyword
  (tagKind t = some 4 ∧ tagName t = some (s.map lowChar)) ∨
  -- an operator or a delimiter, spelt as its name says or in the old way
  (tagKind t = some 3 ∧ (tagName t = some (s.map lowChar) ∨
    ∃ p ∈ oldRelation, p.1.toList = s.map lowChar ∧ tagName t = some p.2.toList)) ∨
  -- a name, which is not the name of a keyword
  (t = Tag.TK_NAME ∧ NameText s ∧ ∀ k, tagKind k = some 4 → tagName k ≠ some (s.map lowChar)) ∨
  -- a defined operator
  (t = Tag.TK_DEF_OP ∧ ∃ m, s = '.' :: (m ++ ['.']) ∧ m ≠ [] ∧ ∀ c ∈ m, isLetter c = true) ∨
  -- literals
  (t = Tag.TK_FALSE_CONSTANT ∧ ∃ a b, s = a ++ b ∧ a.map lowChar = ".false.".toList ∧ KindSuffix b) ∨
  (t = Tag.TK_TRUE_CONSTANT ∧ ∃ a b, s = a ++ b ∧ a.map lowChar = ".true.".toList ∧ KindSuffix b) ∨
  (t = Tag.SG_CHAR_LITERAL_CONSTANT ∧ ∃ a q b, s = a ++ q :: (b ++ [q]) ∧ (q = '"' ∨ q = '\'') ∧
    KindBefore a ∧ Quoted q b) ∨
  (t = Tag.SG_INT_LITERAL_CONSTANT ∧ ∃ a b, s = a ++ b ∧ DigitText a ∧ KindSuffix b) ∨
  -- the parts of a real literal
  (t = Tag.SG_SIGNIFICAND ∧ (DigitText s ∨ ∃ a b, s = a ++ '.' :: b ∧ (∀ c ∈ a, isDigit c = true) ∧
    (∀ c ∈ b, isDigit c = true) ∧ (a ≠ [] ∨ b ≠ []))) ∨
  (t = Tag.SG_EXPONENT_LETTER ∧ s.map lowChar ∈ ["e".toList, "d".toList]) ∨
  (t = Tag.SG_EXPONENT ∧ ∃ g d, s = g ++ d ∧ (g = [] ∨ g = ['-'] ∨ g = ['+']) ∧ DigitText d) ∨
  (t = Tag.SG_KIND_PARAM ∧ KindText s) ∨
  -- any other character
  (t = Tag.UNKNOWN ∧ ∃ c, s = [c] ∧ c ≠ '\n')

end Spec
open Spec

theorem keyword_names : ∀ k ∈ keywords, tagKind k.2 = some 4 ∧ tagName k.2 = some k.1.toList := by
  decide +kernel

theorem symbol_names : ∀ k ∈ symbols, tagKind k.2 = some 3 ∧ (tagName k.2 = some k.1.toList ∨
    ∃ p ∈ oldRelation, p.1.toList = k.1.toList ∧ tagName k.2 = some p.2.toList) := by
  decide +kernel

theorem table_keywords : ∀ x ∈ Tag.table, x.2 = 4 →
    ∃ k ∈ keywords, k.1.toList = x.1.toList.map lowChar := by
  decide +kernel

theorem kindText_iff (s : Str) : Matches KIND s ↔ KindText s := by
  rw [m_KIND]; rfl

theorem kindSuffix_iff (s : Str) : Matches kindSuffix s ↔ KindSuffix s := by
  unfold kindSuffix
  rw [m_opt, m_underKind]
  simp only [kindText_iff, KindSuffix]
  exact or_comm

theorem quoted_of_star (q : Char) (hq : isLower q = false) (s : Str)
    (h : Matches (.star (.alt (lit [q, q]) (.cls (fun c => c != q)))) s) : Quoted q s := by
  generalize hr : RE.star (.alt (lit [q, q]) (.cls (fun c => c != q))) = r at h
  induction h with
  | starNil => exact .nil
  | @starCons a s t h1 h2 _ ih =>
    simp only [RE.star.injEq] at hr
    subst hr
    have ih := ih rfl
    rw [Matches.alt_iff] at h1
    rcases h1 with h1 | h1
    · rw [m_lit] at h1
      match s with
      | [] => simp at h1
      | [x] => simp at h1
      | x :: y :: z :: s => simp at h1
      | [x, y] =>
        simp only [List.map_cons, List.map_nil, List.cons.injEq, and_true] at h1
        rw [lowChar_eq_of_not_letter x q hq h1.1, lowChar_eq_of_not_letter y q hq h1.2]
        exact .pair ih
    · rw [Matches.cls_iff] at h1
      obtain ⟨c, rfl, hc⟩ := h1
      exact .other (by simpa using hc) ih
  | _ => simp at hr

theorem charLit_spells (q : Char) (hq : q = '"' ∨ q = '\'') (s : Str) (h : Matches (charLit q) s) :
    ∃ a b, s = a ++ q :: (b ++ [q]) ∧ KindBefore a ∧ Quoted q b := by
  have hql : isLower q = false := by rcases hq with rfl | rfl <;> decide
  have one : ∀ u : Str, u.map lowChar = [q] → u = [q] := by
    intro u hu
    match u with
    | [] => simp at hu
    | [x] =>
      simp only [List.map_cons, List.map_nil, List.cons.injEq, and_true] at hu
      rw [lowChar_eq_of_not_letter x q hql hu]
    | x :: y :: u => simp at hu
  unfold charLit at h
  rw [Matches.seq_iff] at h
  obtain ⟨a, v, rfl, ha, h⟩ := h
  rw [Matches.seq_iff] at h
  obtain ⟨q1, v, rfl, hq1, h⟩ := h
  rw [Matches.seq_iff] at h
  obtain ⟨b, q2, rfl, hb, hq2⟩ := h
  rw [m_lit] at hq1 hq2
  rw [one _ hq1, one _ hq2]
  refine ⟨a, b, rfl, ?_, quoted_of_star q hql b hb⟩
  rw [m_opt] at ha
  rcases ha with ha | rfl
  · rw [Matches.seq_iff] at ha
    obtain ⟨k, u, rfl, hk, hu⟩ := ha
    rw [m_lit, map_underscore] at hu
    subst hu
    exact Or.inr ⟨k, rfl, (kindText_iff k).mp hk⟩
  · exact Or.inl rfl

theorem name_not_keyword (s : Str) (hk : ∀ k ∈ keywords, k.1.toList ≠ s.map lowChar) (t : Int)
    (ht : tagKind t = some 4) : tagName t ≠ some (s.map lowChar) := by
  unfold tagKind at ht
  unfold tagName
  cases hx : Tag.table[t.toNat]? with
  | none => simp
  | some x =>
    rw [hx] at ht
    simp only [Option.map_some, Option.some.injEq] at ht ⊢
    obtain ⟨k, h1, h2⟩ := table_keywords x (List.mem_of_getElem? hx) ht
    rw [← h2]
    exact fun e => hk k h1 (Option.some.inj e)

/-- A token returned in the initial condition. -/
theorem pick_spells (s : Str) (n : Nat) (t : Int) (hp : pick (rules .initial) s = some (n, .ret t)) :
    Spells t (s.take n) := by
  have hsp := pick_spec (rules .initial) s
  rw [hp] at hsp
  obtain ⟨i, ⟨r, hr⟩, ⟨h0, hle, r', a', hr', hm⟩, hlong, hfirst⟩ := hsp
  rw [hr] at hr'
  simp only [Option.some.injEq, Prod.mk.injEq] at hr'
  obtain ⟨rfl, rfl⟩ := hr'
  have hmem : (r, Act.ret t) ∈ initialRules := List.mem_of_getElem? hr
  have hnk : ∀ k ∈ keywords, i ≥ keywords.length → k.1.toList ≠ (s.take n).map lowChar := by
    intro k hk hi he
    obtain ⟨j, hj, hjk⟩ := List.getElem_of_mem hk
    refine absurd (hfirst j ⟨h0, hle, lit k.1.toList, .ret k.2, ?_, ?_⟩) (by omega)
    · show initialRules[j]? = _
      unfold initialRules
      rw [List.append_assoc, List.getElem?_append_left (by simpa using hj)]
      simp [hj, hjk]
    · rw [m_lit, he]
  by_cases hi : i < keywords.length
  · left
    have hk : (r, Act.ret t) ∈ keywords.map (fun k => (lit k.1.toList, Act.ret k.2)) := by
      have hr' : initialRules[i]? = some (r, Act.ret t) := hr
      unfold initialRules at hr'
      rw [List.append_assoc, List.getElem?_append_left (by simpa using hi)] at hr'
      exact List.mem_of_getElem? hr'
    obtain ⟨k, hk2, he⟩ := List.mem_map.mp hk
    simp only [Prod.mk.injEq, Act.ret.injEq] at he
    obtain ⟨rfl, rfl⟩ := he
    rw [m_lit] at hm
    rw [hm]
    exact keyword_names k hk2
  · have hk : (r, Act.ret t) ∈ symbols.map (fun k => (lit k.1.toList, Act.ret k.2)) ++
        literalRules := by
      have hr' : initialRules[i]? = some (r, Act.ret t) := hr
      unfold initialRules at hr'
      rw [List.append_assoc, List.getElem?_append_right (by simp; omega)] at hr'
      exact List.mem_of_getElem? hr'
    rcases List.mem_append.mp hk with hk | hk
    · right; left
      obtain ⟨k, hk2, he⟩ := List.mem_map.mp hk
      simp only [Prod.mk.injEq, Act.ret.injEq] at he
      obtain ⟨rfl, rfl⟩ := he
      rw [m_lit] at hm
      rw [hm]
      exact symbol_names k hk2
    · have hnk' : ∀ k ∈ keywords, k.1.toList ≠ (s.take n).map lowChar :=
        fun k hk => hnk k hk (by omega)
      generalize s.take n = w at hm hnk' ⊢
      simp only [literalRules, List.mem_cons, Prod.mk.injEq, Act.ret.injEq, List.not_mem_nil,
        or_false, reduceCtorEq, and_false, false_or] at hk
      rcases hk with ⟨rfl, rfl⟩ | ⟨rfl, rfl⟩ | ⟨rfl, rfl⟩ | ⟨rfl, rfl⟩ | ⟨rfl, rfl⟩ | ⟨rfl, rfl⟩ |
        ⟨rfl, rfl⟩ | ⟨rfl, rfl⟩
      · rw [Matches.seq_iff] at hm
        obtain ⟨a, b, rfl, h1, h2⟩ := hm
        rw [m_lit] at h1
        rw [kindSuffix_iff] at h2
        exact Or.inr (Or.inr (Or.inr (Or.inr (Or.inl ⟨rfl, a, b, rfl, h1, h2⟩))))
      · rw [Matches.seq_iff] at hm
        obtain ⟨a, b, rfl, h1, h2⟩ := hm
        rw [m_lit] at h1
        rw [kindSuffix_iff] at h2
        exact Or.inr (Or.inr (Or.inr (Or.inr (Or.inr (Or.inl ⟨rfl, a, b, rfl, h1, h2⟩)))))
      · obtain ⟨a, b, e, h1, h2⟩ := charLit_spells '"' (Or.inl rfl) w hm
        exact Or.inr (Or.inr (Or.inr (Or.inr (Or.inr (Or.inr (Or.inl
          ⟨rfl, a, '"', b, e, Or.inl rfl, h1, h2⟩))))))
      · obtain ⟨a, b, e, h1, h2⟩ := charLit_spells '\'' (Or.inr rfl) w hm
        exact Or.inr (Or.inr (Or.inr (Or.inr (Or.inr (Or.inr (Or.inl
          ⟨rfl, a, '\'', b, e, Or.inr rfl, h1, h2⟩))))))
      · rw [Matches.seq_iff] at hm
        obtain ⟨a, b, rfl, h1, h2⟩ := hm
        rw [m_digits] at h1
        rw [kindSuffix_iff] at h2
        exact Or.inr (Or.inr (Or.inr (Or.inr (Or.inr (Or.inr (Or.inr (Or.inl
          ⟨rfl, a, b, rfl, h1, h2⟩)))))))
      · rw [Matches.seq_iff] at hm
        obtain ⟨a, v, rfl, h1, h2⟩ := hm
        rw [Matches.seq_iff] at h2
        obtain ⟨m, b, rfl, h2, h3⟩ := h2
        rw [m_lit] at h1 h3
        rw [m_plus_cls] at h2
        have dot1 : ∀ u : Str, u.map lowChar = ['.'] → u = ['.'] := by
          intro u hu
          match u with
          | [] => simp at hu
          | [x] => simpa [lowChar_eq_dot] using hu
          | x :: y :: u => simp at hu
        rw [dot1 a h1, dot1 b h3]
        exact Or.inr (Or.inr (Or.inr (Or.inl ⟨rfl, m, rfl, h2.1, h2.2⟩)))
      · rw [m_NAME] at hm
        exact Or.inr (Or.inr (Or.inl ⟨rfl, hm, fun k hk => name_not_keyword w hnk' k hk⟩))
      · unfold dot at hm
        rw [Matches.cls_iff] at hm
        obtain ⟨c, rfl, hc⟩ := hm
        refine Or.inr (Or.inr (Or.inr (Or.inr (Or.inr (Or.inr (Or.inr (Or.inr (Or.inr (Or.inr
          (Or.inr (Or.inr ⟨rfl, c, rfl, by simpa using hc⟩)))))))))))

theorem run_spells {q q' : Cond} {p : Nat} {s : Str} {ls : List Lexeme} (h : Run q p s ls q') :
    ∀ l ∈ ls, Spells l.tag l.text := by
  induction h with
  | done => simp
  | white _ _ ih => exact ih
  | tok _ _ hp _ ih =>
    intro l hl
    rcases List.mem_cons.mp hl with rfl | hl
    · exact pick_spells _ _ _ hp
    · exact ih l hl
  | toReal _ _ _ _ ih => exact ih
  | signif _ _ _ _ hm _ ih =>
    intro l hl
    rcases List.mem_cons.mp hl with rfl | hl
    · refine Or.inr (Or.inr (Or.inr (Or.inr (Or.inr (Or.inr (Or.inr (Or.inr (Or.inl ⟨rfl, ?_⟩))))))))
      rcases hm with hm | hm
      · rw [m_SIGNIFICAND] at hm; exact Or.inr hm
      · rw [m_digits] at hm; exact Or.inl hm
    · exact ih l hl
  | expo hc _ _ hs _ ih =>
    intro l hl
    rcases List.mem_cons.mp hl with rfl | hl
    · refine Or.inr (Or.inr (Or.inr (Or.inr (Or.inr (Or.inr (Or.inr (Or.inr (Or.inr (Or.inl
        ⟨rfl, ?_⟩)))))))))
      simpa [isExpLetter] using hc
    · rcases List.mem_cons.mp hl with rfl | hl
      · refine Or.inr (Or.inr (Or.inr (Or.inr (Or.inr (Or.inr (Or.inr (Or.inr (Or.inr (Or.inr (Or.inl
          ⟨rfl, ?_⟩))))))))))
        obtain ⟨g, d, e, h1, h2, h3⟩ := hs
        exact ⟨g, d, e, h1, h2, h3⟩
      · exact ih l hl
  | kind _ _ hk _ ih =>
    intro l hl
    rcases List.mem_cons.mp hl with rfl | hl
    · right; left
      exact ⟨show tagKind Tag.TK_UNDERSCORE = some 3 by decide +kernel,
        Or.inl (show tagName Tag.TK_UNDERSCORE = some (['_'].map lowChar) by decide +kernel)⟩
    · rcases List.mem_cons.mp hl with rfl | hl
      · exact Or.inr (Or.inr (Or.inr (Or.inr (Or.inr (Or.inr (Or.inr (Or.inr (Or.inr (Or.inr (Or.inr
          (Or.inl ⟨rfl, (kindText_iff _).mp hk⟩)))))))))))
      · exact ih l hl
  | toInit _ _ _ _ ih => exact ih

/-- **C51.**  Every token the scanner returns has a tag that agrees with its text: a keyword tag means
that the text spells the printable name of the tag in any mixture of cases, an operator is spelt as
the name of its tag or in the old way, a name is not spelt like any keyword, and literals have the
form their tag says. -/
theorem C51_spelling (st st' : State) (text : Str) (ls : List Lexeme) (hst : LineState st)
    (h : scan st text = .ok (ls, st')) (l : Lexeme) (hl : l ∈ ls) : Spells l.tag l.text := by
  have ha : ∀ c ∈ Smash.cStr text, isAscii c = true := by
    by_contra hne
    push Not at hne
    obtain ⟨c, hc, ha⟩ := hne
    rw [C47_non_ascii st text ⟨c, hc, by simpa using ha⟩] at h
    simp at h
  obtain ⟨ls', q', h1, h2, _⟩ := scan_ok st text hst ha
  rw [h1] at h
  simp only [Except.ok.injEq, Prod.mk.injEq] at h
  rw [← h.1] at hl
  exact run_spells h2 l hl

/-- The keywords, operators and delimiters. -/
def fixedText (x : String × Int) : Bool := (x.2 == 3 || x.2 == 4) && x.1 != "name"

theorem table_names_nodup : ((Tag.table.filter fixedText).map
    (fun x => x.1.toList.map lowChar)).Nodup := by decide +kernel

theorem name_index : ∀ x ∈ Tag.table.zipIdx, x.1.1 = "name" → (x.2 : Int) = Tag.TK_NAME := by
  decide +kernel

/-- **C51** (the tags are told apart) No two keyword, operator or delimiter tags have the same
printable name (in any mixture of cases), so such a tag is determined by the text of the token. -/
theorem C51_distinct (i j : Nat) (hi : tagKind i = some 3 ∨ tagKind i = some 4)
    (hin : (i : Int) ≠ Tag.TK_NAME)
    (hj : tagKind j = some 3 ∨ tagKind j = some 4)
    (hjn : (j : Int) ≠ Tag.TK_NAME) (h : tagName i = tagName j) : i = j := by
  have key : ∀ (l : List (String × Int)) (i j : Nat) (x y : String × Int),
      ((l.filter fixedText).map (fun x => x.1.toList.map lowChar)).Nodup →
      l[i]? = some x → l[j]? = some y → fixedText x = true →
      fixedText y = true → x.1.toList.map lowChar = y.1.toList.map lowChar → i = j := by
    intro l
    induction l with
    | nil => intro i j x y _ hx; simp at hx
    | cons a l ih =>
      intro i j x y hn hx hy kx ky he
      have hmem : ∀ (k : Nat) (z : String × Int), l[k]? = some z → fixedText z = true →
          z.1.toList.map lowChar ∈ (l.filter fixedText).map
            (fun x => x.1.toList.map lowChar) := fun k z hz kz =>
        List.mem_map.mpr ⟨z, List.mem_filter.mpr ⟨List.mem_of_getElem? hz, kz⟩, rfl⟩
      cases i with
      | zero =>
        simp only [List.getElem?_cons_zero, Option.some.injEq] at hx
        subst hx
        rw [List.filter_cons_of_pos kx, List.map_cons, List.nodup_cons] at hn
        cases j with
        | zero => rfl
        | succ j =>
          rw [List.getElem?_cons_succ] at hy
          exact absurd (he ▸ hmem j y hy ky) hn.1
      | succ i =>
        rw [List.getElem?_cons_succ] at hx
        cases j with
        | zero =>
          simp only [List.getElem?_cons_zero, Option.some.injEq] at hy
          subst hy
          rw [List.filter_cons_of_pos ky, List.map_cons, List.nodup_cons] at hn
          exact absurd (he ▸ hmem i x hx kx) hn.1
        | succ j =>
          rw [List.getElem?_cons_succ] at hy
          have hn' : ((l.filter fixedText).map
              (fun x => x.1.toList.map lowChar)).Nodup := by
            rw [List.filter_cons] at hn
            split at hn
            · rw [List.map_cons, List.nodup_cons] at hn; exact hn.2
            · exact hn
          rw [ih i j x y hn' hx hy kx ky he]
  have get : ∀ k : Nat, (tagKind k = some 3 ∨ tagKind k = some 4) → (k : Int) ≠ Tag.TK_NAME → ∃ x, Tag.table[k]? = some x ∧
      fixedText x = true ∧ tagName k = some (x.1.toList.map lowChar) := by
    intro k hk hkn
    unfold tagKind at hk
    unfold tagName
    simp only [Int.toNat_natCast] at hk ⊢
    cases hx : Tag.table[k]? with
    | none => rw [hx] at hk; simp at hk
    | some x =>
      rw [hx] at hk
      simp only [Option.map_some, Option.some.injEq] at hk
      have hne : (x.1 != "name") = true := by
        simp only [bne_iff_ne, ne_eq]
        intro e
        have := name_index (x, k) (by
          rw [List.mem_iff_getElem?]
          exact ⟨k, by rw [List.getElem?_zipIdx, hx]; simp⟩) e
        exact hkn this
      exact ⟨x, rfl, by rcases hk with hk | hk <;> simp [fixedText, hk, hne], rfl⟩
  obtain ⟨x, hx, kx, nx⟩ := get i hi hin
  obtain ⟨y, hy, ky, ny⟩ := get j hj hjn
  rw [nx, ny] at h
  exact key Tag.table i j x y table_names_nodup hx hy kx ky (Option.some.inj h)

example : (scan {} "If (x .EQ. 1.5e-3_dp) name = 'it''s'".toList).map
    (fun r => r.1.map (fun l => (l.tag, String.ofList l.text))) = .ok
    [(Tag.KW_IF, "If"), (Tag.TK_PARENL, "("), (Tag.TK_NAME, "x"), (Tag.TK_REL_EQ, ".EQ."),
     (Tag.SG_SIGNIFICAND, "1.5"), (Tag.SG_EXPONENT_LETTER, "e"), (Tag.SG_EXPONENT, "-3"),
     (Tag.TK_UNDERSCORE, "_"), (Tag.SG_KIND_PARAM, "dp"), (Tag.TK_PARENR, ")"),
     (Tag.KW_NAME, "name"), (Tag.TK_EQUAL, "="), (Tag.SG_CHAR_LITERAL_CONSTANT, "'it''s'")] := by
  decide +kernel

end FLPR
