import Verif.Lexer.Props
/-!
# Words: keywords and names (C48)
-/

namespace FLPR
open Flex RE

namespace Spec

/-- The tag a word must get: that of the keyword it spells in any mixture of cases, or the tag of a
name. -/
def wordTag (w : Str) : Int :=
  match keywords.find? (fun k => k.1.toList == w.map lowChar) with
  | some k => k.2
  | none => Tag.TK_NAME

/-- `w` is a whole word at the start of `w ++ rest`: a letter followed by letters, digits and
underscores, as many as there are. -/
def WholeWord (w rest : Str) : Prop :=
  (∃ c t, w = c :: t ∧ isLetter c = true ∧ ∀ x ∈ t, isWord x = true) ∧
  (∀ x ∈ rest.head?, isWord x = false)

/-- `w` can be the kind prefix of a character literal that starts `w ++ rest`. -/
def KindPrefix (w rest : Str) : Prop :=
  w.getLast? = some '_' ∧ (rest.head? = some '"' ∨ rest.head? = some '\'')

end Spec
open Spec

theorem keyword_chars : ∀ k ∈ keywords, k.1.toList ≠ [] ∧ ∀ c ∈ k.1.toList, isLower c = true ∨ c = '_' := by
  decide +kernel

theorem symbol_heads : ∀ k ∈ symbols, ∀ c ∈ k.1.toList.head?, isLower c = false := by decide +kernel
theorem symbol_ne : ∀ k ∈ symbols, k.1.toList ≠ [] := by decide +kernel

theorem keywords_nodup : ∀ i < keywords.length, ∀ j < i,
    (keywords[i]?.map (·.1.toList)) ≠ (keywords[j]?.map (·.1.toList)) := by decide +kernel

theorem isWord_of_low (c : Char) (h : isLower (lowChar c) = true ∨ lowChar c = '_') :
    isWord c = true := by
  unfold isWord isLetter
  rcases h with h | h
  · simp [h]
  · rw [lowChar_eq_of_not_letter c '_' (by decide) h]; decide

theorem isLetter_isWord (c : Char) (h : isLetter c = true) : isWord c = true := by
  unfold isWord; simp [h]

/-- A prefix made of word characters is not longer than the word. -/
theorem word_prefix_le (w rest : Str) (m : Nat)
    (hr : ∀ x ∈ rest.head?, isWord x = false) (h : ∀ x ∈ (w ++ rest).take m, isWord x = true)
    (hm : m ≤ (w ++ rest).length) : m ≤ w.length := by
  by_contra hlt
  cases rest with
  | nil => simp at hm; omega
  | cons x rest =>
    have hx := hr x (by simp)
    have : x ∈ (w ++ x :: rest).take m := by
      rw [List.take_append]
      have : m - w.length = (m - w.length - 1) + 1 := by omega
      rw [this, List.take_succ_cons]
      simp
    rw [h x this] at hx
    simp at hx

/-- What a rule of the initial condition can match at the start of a word. -/
theorem word_rules (w rest : Str) (hw : WholeWord w rest) (r : RE) (a : Act) (m : Nat)
    (hr : (r, a) ∈ literalRules) (hm : m ≤ (w ++ rest).length) (h0 : 0 < m)
    (h : Matches r ((w ++ rest).take m)) :
    (m ≤ w.length ∧ (r, a) ∈ [(NAME, Act.ret Tag.TK_NAME),
      (oneOf [' ', '\t', '\r'], Act.skip), (dot, Act.ret Tag.UNKNOWN)]) ∨
    (w.length < m ∧ a = .ret Tag.SG_CHAR_LITERAL_CONSTANT ∧ KindPrefix w rest) := by
  obtain ⟨⟨c, t, rfl, hc, ht⟩, hrw⟩ := hw
  obtain ⟨m, rfl⟩ : ∃ k, m = k + 1 := ⟨m - 1, by omega⟩
  have htake : ((c :: t) ++ rest).take (m + 1) = c :: (t ++ rest).take m := rfl
  have hlow : isLower (lowChar c) = true := hc
  have hnot : ∀ d : Char, isLower d = false → lowChar c ≠ d := by
    intro d hd e; rw [e, hd] at hlow; simp at hlow
  -- patterns that start with a point
  have dotcase : ∀ (x : Str) (k : RE), Matches (.seq (lit ('.' :: x)) k)
      (c :: (t ++ rest).take m) → False := by
    intro x k h
    rw [Matches.seq_iff] at h
    obtain ⟨u, v, e, h1, _⟩ := h
    rw [m_lit] at h1
    cases u with
    | nil => simp at h1
    | cons y u => simp at e h1; exact hnot '.' (by decide) (e.1 ▸ h1.1)
  have numcase : NumStart ((c :: t) ++ rest) → False := by
    intro h
    rcases head_numStart c (t ++ rest) h with h | h
    · rw [(digit_not_letter c h).1] at hc; simp at hc
    · rw [h] at hc; exact absurd hc (by decide)
  have quotecase : ∀ q : Char, (q = '"' ∨ q = '\'') →
      Matches (charLit q) (c :: (t ++ rest).take m) →
        (c :: t).length < m + 1 ∧ KindPrefix (c :: t) rest := by
    intro q hq h
    have hql : isLower q = false := by rcases hq with rfl | rfl <;> decide
    have hqw : isWord q = false := by rcases hq with rfl | rfl <;> decide
    unfold charLit at h
    rw [Matches.seq_iff] at h
    obtain ⟨u, v, e, h1, h2⟩ := h
    rw [Matches.seq_iff] at h2
    obtain ⟨v1, v2, rfl, h2, _⟩ := h2
    rw [m_lit] at h2
    obtain ⟨rfl⟩ : v1 = [q] := by
      cases v1 with
      | nil => simp at h2
      | cons y v1 =>
        simp at h2
        rw [h2.2, lowChar_eq_of_not_letter y q hql h2.1]
    rw [m_opt] at h1
    rcases h1 with h1 | rfl
    · rw [Matches.seq_iff] at h1
      obtain ⟨k, k2, rfl, hk, h1⟩ := h1
      rw [m_lit, map_underscore] at h1
      subst h1
      -- the text starts with `k ++ "_" ++ [q]`
      have hkw : ∀ x ∈ k ++ ['_'], isWord x = true := by
        rw [m_KIND] at hk
        intro x hx
        rcases List.mem_append.mp hx with hx | hx
        · rcases hk with ⟨_, hk⟩ | ⟨y, z, rfl, h1, h2⟩
          · unfold isWord; simp [hk x hx]
          · rcases List.mem_cons.mp hx with rfl | hx
            · exact isLetter_isWord _ h1
            · exact h2 x hx
        · simp at hx; subst hx; decide
      have hpre : ∃ z, (c :: t) ++ rest = (k ++ ['_']) ++ q :: z := by
        refine ⟨v2 ++ ((c :: t) ++ rest).drop (m + 1), ?_⟩
        calc (c :: t) ++ rest = ((c :: t) ++ rest).take (m + 1) ++ ((c :: t) ++ rest).drop (m + 1) :=
              (List.take_append_drop _ _).symm
          _ = _ := by rw [htake, e]; simp
      obtain ⟨z, hz⟩ := hpre
      have hlen : (k ++ ['_']).length < m + 1 := by
        have := congrArg List.length e
        rw [List.length_cons, List.length_take, List.length_append, List.length_append] at this
        simp at this ⊢
        omega
      have hall : ∀ x ∈ c :: t, isWord x = true := by
        intro x hx
        rcases List.mem_cons.mp hx with rfl | hx
        · exact isLetter_isWord _ hc
        · exact ht x hx
      rcases List.append_eq_append_iff.mp hz with ⟨s, hs1, hs2⟩ | ⟨s, hs1, hs2⟩
      · -- k ++ "_" = (c :: t) ++ s
        cases s with
        | nil =>
          simp at hs1 hs2
          have hlast : (c :: t).getLast? = some '_' := by rw [← hs1]; simp
          refine ⟨by rw [← hs1]; exact hlen, hlast, ?_⟩
          rw [hs2]
          rcases hq with rfl | rfl
          · exact Or.inl rfl
          · exact Or.inr rfl
        | cons y s =>
          have h3 := hrw y (by rw [hs2]; simp)
          have h4 := hkw y (by rw [hs1]; simp)
          rw [h3] at h4; simp at h4
      · cases s with
        | nil =>
          simp at hs1 hs2
          have hlast : (c :: t).getLast? = some '_' := by rw [hs1]; simp
          refine ⟨by rw [hs1]; exact hlen, hlast, ?_⟩
          rw [← hs2]
          rcases hq with rfl | rfl
          · exact Or.inl rfl
          · exact Or.inr rfl
        | cons y s =>
          simp at hs2
          have h4 := hall y (by rw [hs1]; simp)
          rw [← hs2.1, hqw] at h4
          simp at h4
    · simp at e
      exact absurd (by
        rw [e.1]
        rcases hq with rfl | rfl <;> decide) (hnot q hql)
  rw [htake] at h
  simp only [literalRules, List.mem_cons, List.not_mem_nil, or_false, Prod.mk.injEq] at hr ⊢
  rcases hr with ⟨rfl, rfl⟩ | ⟨rfl, rfl⟩ | ⟨rfl, rfl⟩ | ⟨rfl, rfl⟩ | ⟨rfl, rfl⟩ | ⟨rfl, rfl⟩ |
    ⟨rfl, rfl⟩ | ⟨rfl, rfl⟩ | ⟨rfl, rfl⟩ | ⟨rfl, rfl⟩ | ⟨rfl, rfl⟩
  · exact absurd h (dotcase "false.".toList kindSuffix)
  · exact absurd h (dotcase "true.".toList kindSuffix)
  · have := quotecase '"' (Or.inl rfl) h
    exact Or.inr ⟨this.1, rfl, this.2⟩
  · have := quotecase '\'' (Or.inr rfl) h
    exact Or.inr ⟨this.1, rfl, this.2⟩
  · exact absurd (numStart_real1 _ (m + 1) hm h) numcase
  · exact absurd (numStart_real2 _ (m + 1) hm h) numcase
  · rw [Matches.seq_iff] at h
    obtain ⟨u, v, e, h1, _⟩ := h
    exact absurd (numStart_of_append u v [] ((c :: t) ++ rest) (m + 1) hm
      (by rw [htake]; simpa using e) (Or.inr h1)) numcase
  · exact absurd h (dotcase [] _)
  · refine Or.inl ⟨word_prefix_le (c :: t) rest (m + 1) hrw ?_ hm, by simp⟩
    rw [m_NAME] at h
    obtain ⟨d, x, e, hd, hx⟩ := h
    rw [htake, e]
    intro y hy
    rcases List.mem_cons.mp hy with rfl | hy
    · exact isLetter_isWord _ hd
    · exact hx y hy
  · rw [m_oneOf] at h
    obtain ⟨d, e, hd⟩ := h
    have := congrArg List.length e
    rw [List.length_cons, List.length_take, List.length_append, List.length_singleton] at this
    rw [List.length_append, List.length_cons] at hm
    refine Or.inl ⟨?_, by simp⟩
    rw [List.length_cons]
    omega
  · unfold dot at h
    rw [Matches.cls_iff] at h
    obtain ⟨d, e, hd⟩ := h
    have := congrArg List.length e
    rw [List.length_cons, List.length_take, List.length_append, List.length_singleton] at this
    rw [List.length_append, List.length_cons] at hm
    refine Or.inl ⟨?_, by simp⟩
    rw [List.length_cons]
    omega

theorem length_map_take (w rest : Str) : ((w ++ rest).take w.length).map lowChar = w.map lowChar := by
  simp

theorem word_all (w rest : Str) (hw : WholeWord w rest) : w ≠ [] ∧ ∀ x ∈ w, isWord x = true := by
  obtain ⟨⟨c, t, rfl, hc, ht⟩, _⟩ := hw
  refine ⟨by simp, fun x hx => ?_⟩
  rcases List.mem_cons.mp hx with rfl | hx
  · exact isLetter_isWord _ hc
  · exact ht x hx

/-- Where a rule of the initial condition comes from. -/
theorem initial_rule_cases (j : Nat) (r : RE) (a : Act) (h : (rules .initial)[j]? = some (r, a)) :
    (∃ k, keywords[j]? = some k ∧ r = lit k.1.toList ∧ a = .ret k.2) ∨
    (keywords.length ≤ j ∧ ∃ k ∈ symbols, r = lit k.1.toList) ∨
    (keywords.length + symbols.length ≤ j ∧
      literalRules[j - (keywords.length + symbols.length)]? = some (r, a)) := by
  have hr : rules .initial = initialRules := rfl
  rw [hr] at h
  unfold initialRules at h
  rw [List.getElem?_append] at h
  split at h
  · rename_i hj
    rw [List.getElem?_append] at h
    split at h
    · rw [List.getElem?_map, Option.map_eq_some_iff] at h
      obtain ⟨k, hk, e⟩ := h
      simp at e
      exact Or.inl ⟨k, hk, e.1.symm, e.2.symm⟩
    · rename_i hj2
      rw [List.getElem?_map, Option.map_eq_some_iff] at h
      obtain ⟨k, hk, e⟩ := h
      simp at e
      refine Or.inr (Or.inl ⟨by simpa using hj2, k, List.mem_of_getElem? hk, e.1.symm⟩)
  · rename_i hj
    rw [List.length_append, List.length_map, List.length_map] at hj h
    exact Or.inr (Or.inr ⟨by omega, h⟩)

theorem keyword_rule (i : Nat) (k : String × Int) (h : keywords[i]? = some k) :
    (rules .initial)[i]? = some (lit k.1.toList, .ret k.2) := by
  have hr : rules .initial = initialRules := rfl
  have hlt : i < keywords.length := by
    rw [List.getElem?_eq_some_iff] at h; exact h.1
  rw [hr]
  unfold initialRules
  rw [List.getElem?_append_left (by simp; omega), List.getElem?_append_left (by simpa using hlt),
    List.getElem?_map, h]
  rfl

theorem name_rule : (rules .initial)[keywords.length + symbols.length + 8]? =
    some (NAME, .ret Tag.TK_NAME) := by
  have hr : rules .initial = initialRules := rfl
  rw [hr]
  unfold initialRules
  rw [List.getElem?_append_right (by simp)]
  simp [literalRules]

/-- The rules that can match at the start of a word, and how much. -/
theorem word_rule_match (w rest : Str) (hw : WholeWord w rest) (j m : Nat)
    (h : RuleMatches (rules .initial) (w ++ rest) j m) :
    (m ≤ w.length ∧ ((∃ k, keywords[j]? = some k ∧
        k.1.toList = ((w ++ rest).take m).map lowChar) ∨
      keywords.length + symbols.length + 8 ≤ j)) ∨
    (w.length < m ∧ (∃ r, (rules .initial)[j]? = some (r, .ret Tag.SG_CHAR_LITERAL_CONSTANT)) ∧
      KindPrefix w rest) := by
  obtain ⟨h0, hle, r, a, hr, hm⟩ := h
  rcases initial_rule_cases j r a hr with ⟨k, hk, rfl, rfl⟩ | ⟨hj, k, hk, rfl⟩ | ⟨hj, hl⟩
  · rw [m_lit] at hm
    refine Or.inl ⟨word_prefix_le w rest m hw.2 ?_ hle, Or.inl ⟨k, hk, hm.symm⟩⟩
    intro x hx
    apply isWord_of_low
    have := (keyword_chars k (List.mem_of_getElem? hk)).2 (lowChar x) (by
      rw [← hm]; exact List.mem_map_of_mem hx)
    exact this
  · exfalso
    rw [m_lit] at hm
    obtain ⟨⟨c, t, rfl, hc, ht⟩, _⟩ := hw
    obtain ⟨m, rfl⟩ : ∃ k, m = k + 1 := ⟨m - 1, by omega⟩
    have := symbol_heads k hk (lowChar c) (by rw [← hm]; simp)
    have hc' : isLower (lowChar c) = true := hc
    rw [hc'] at this
    simp at this
  · rcases word_rules w rest hw r a m (List.mem_of_getElem? hl) hle h0 hm with h | h
    · refine Or.inl ⟨h.1, Or.inr ?_⟩
      by_contra hlt
      have hd : j - (keywords.length + symbols.length) < 8 := by omega
      generalize j - (keywords.length + symbols.length) = d at hl hd
      have key : ∀ d < 8, ∀ x ∈ literalRules[d]?, x.2 ≠ .ret Tag.TK_NAME ∧ x.2 ≠ .skip ∧
          x.2 ≠ .ret Tag.UNKNOWN := by decide +kernel
      have := key d hd (r, a) hl
      have hin := h.2
      simp only [List.mem_cons, List.not_mem_nil, or_false, Prod.mk.injEq] at hin
      rcases hin with ⟨_, e⟩ | ⟨_, e⟩ | ⟨_, e⟩
      · exact this.1 e
      · exact this.2.1 e
      · exact this.2.2 e
    · obtain ⟨h1, rfl, h3⟩ := h
      exact Or.inr ⟨h1, ⟨r, hr⟩, h3⟩

/-- At the start of a word the scanner takes the whole word with the right tag, unless the word is
the kind prefix of a character literal. -/
theorem word_pick (w rest : Str) (hw : WholeWord w rest) :
    pick (rules .initial) (w ++ rest) = some (w.length, .ret (wordTag w)) ∨
    (∃ m, w.length < m ∧
      pick (rules .initial) (w ++ rest) = some (m, .ret Tag.SG_CHAR_LITERAL_CONSTANT) ∧
      KindPrefix w rest) := by
  obtain ⟨hne, hall⟩ := word_all w rest hw
  have hlen : 0 < w.length := List.length_pos_iff.mpr hne
  -- the name rule always matches the whole word
  have hname : RuleMatches (rules .initial) (w ++ rest) (keywords.length + symbols.length + 8)
      w.length := by
    refine ⟨hlen, by simp, _, _, name_rule, ?_⟩
    rw [m_NAME]
    obtain ⟨⟨c, t, rfl, hc, ht⟩, _⟩ := hw
    exact ⟨c, t, by simp, hc, ht⟩
  have hsp := pick_spec (rules .initial) (w ++ rest)
  cases hp : pick (rules .initial) (w ++ rest) with
  | none => rw [hp] at hsp; exact absurd hname (hsp _ _)
  | some p =>
    obtain ⟨m, a⟩ := p
    rw [hp] at hsp
    obtain ⟨i, ⟨r, hr⟩, hmat, hlong, hfirst⟩ := hsp
    have hm := hlong _ _ hname
    rcases word_rule_match w rest hw i m hmat with ⟨h1, h2⟩ | ⟨h1, ⟨r', h2⟩, h3⟩
    · left
      have hmw : m = w.length := by omega
      subst hmw
      have htag : ∀ k, k ∈ keywords.find? (fun k => k.1.toList == w.map lowChar) →
          ∃ i' : Nat, keywords[i']? = some k ∧ k.1.toList = w.map lowChar := by
        intro k hk
        have h5 := List.find?_some hk
        obtain ⟨i', hi'⟩ := List.getElem?_of_mem (List.mem_of_find?_eq_some hk)
        exact ⟨i', hi', by simpa using h5⟩
      congr 2
      rcases h2 with ⟨k, hk, hkw⟩ | h2
      · rw [length_map_take] at hkw
        have hrk := keyword_rule i k hk
        rw [hr] at hrk
        simp at hrk
        rw [hrk.2]
        unfold wordTag
        cases hf : keywords.find? (fun k => k.1.toList == w.map lowChar) with
        | none =>
          rw [List.find?_eq_none] at hf
          exact absurd (by simpa using hkw) (hf k (List.mem_of_getElem? hk))
        | some k' =>
          obtain ⟨i', hi', hk'⟩ := htag k' hf
          have : i = i' := by
            have hlt : i < keywords.length := (List.getElem?_eq_some_iff.mp hk).1
            have hlt' : i' < keywords.length := (List.getElem?_eq_some_iff.mp hi').1
            rcases Nat.lt_trichotomy i i' with h | h | h
            · exact absurd (by rw [hk, hi']; simp [hk', hkw]) (keywords_nodup i' hlt' i h)
            · exact h
            · exact absurd (by rw [hk, hi']; simp [hk', hkw]) (keywords_nodup i hlt i' h)
          subst this
          rw [hk] at hi'
          simp at hi'
          simp [hi']
      · -- the name rule was chosen, so no keyword matches
        have hi : i = keywords.length + symbols.length + 8 := by
          have := hfirst _ hname
          omega
        rw [hi, name_rule] at hr
        simp at hr
        rw [← hr.2]
        unfold wordTag
        cases hf : keywords.find? (fun k => k.1.toList == w.map lowChar) with
        | none => rfl
        | some k' =>
          exfalso
          obtain ⟨i', hi', hk'⟩ := htag k' hf
          have hlt' : i' < keywords.length := (List.getElem?_eq_some_iff.mp hi').1
          have := hfirst i' ⟨hlen, by simp, _, _, keyword_rule i' k' hi', by
            rw [m_lit, length_map_take, hk']⟩
          omega
    · right
      rw [hr] at h2
      simp at h2
      exact ⟨m, h1, by rw [h2.2], h3⟩

/-- **C48** (a word is one token) Wherever the scanner stands at the start of a word outside of a
real literal, the next token is the whole word, and its tag is that of the keyword spelt by the
word in any mixture of cases or the tag of a name; the only exception is a word that ends in an
underscore and is followed by a quote (the kind prefix of a character literal). -/
theorem C48_word (w rest : Str) (p : Nat) (ls : List Lexeme) (q : Cond) (hw : WholeWord w rest)
    (hk : ¬ KindPrefix w rest) (h : Run .initial p (w ++ rest) ls q) :
    ∃ ls', ls = ⟨wordTag w, w, p + w.length⟩ :: ls' ∧ Run .initial (p + w.length) rest ls' q := by
  have hp : pick (rules .initial) (w ++ rest) = some (w.length, .ret (wordTag w)) := by
    rcases word_pick w rest hw with h | ⟨_, _, _, h⟩
    · exact h
    · exact absurd h hk
  obtain ⟨hne, hall⟩ := word_all w rest hw
  generalize hs : w ++ rest = s at h
  cases h with
  | done => simp at hs; exact absurd hs.1 hne
  | white hc _ =>
    exfalso
    cases w with
    | nil => exact hne rfl
    | cons x w =>
      simp at hs
      have := hall x (by simp)
      rw [hs.1] at this
      rcases hc with rfl | rfl | rfl | rfl <;> exact absurd this (by decide)
  | tok h0 hle hp' hrun =>
    rw [hs] at hp
    rw [hp] at hp'
    simp at hp'
    obtain ⟨rfl, rfl⟩ := hp'
    rw [← hs, List.drop_left] at hrun
    rw [← hs, List.take_left]
    exact ⟨_, rfl, hrun⟩
  | toReal _ hp' _ _ =>
    rw [hs] at hp
    rw [hp] at hp'
    simp at hp'

/-- **C48** (at the start of a line) In particular the first word of a line, after any blanks. -/
theorem C48_first_word (st : State) (bl w rest : Str) (hst : st.cond = .initial)
    (hb : ∀ c ∈ bl, Blank c) (hw : WholeWord w rest) (hk : ¬ KindPrefix w rest)
    (ha : AsciiStr (bl ++ w ++ rest)) (hn : NUL ∉ bl ++ w ++ rest) :
    ∃ ls st', scan st (bl ++ w ++ rest) =
      .ok (⟨wordTag w, w, bl.length + w.length⟩ :: ls, st') := by
  have htw : Smash.cStr (bl ++ w ++ rest) = bl ++ w ++ rest := by
    unfold Smash.cStr
    rw [List.takeWhile_eq_self_iff]
    intro c hc
    simp only [bne_iff_ne, ne_eq]
    rintro rfl
    exact hn hc
  obtain ⟨ls, q', h1, h2, _⟩ := scan_ok st (bl ++ w ++ rest) (Or.inl hst) (by rw [htw]; exact ha)
  rw [htw, hst] at h2
  have key : ∀ (bl : Str) (p : Nat), (∀ c ∈ bl, Blank c) →
      Run .initial p (bl ++ (w ++ rest)) ls q' →
      ∃ ls', ls = ⟨wordTag w, w, p + bl.length + w.length⟩ :: ls' := by
    intro bl
    induction bl with
    | nil =>
      intro p _ hr
      obtain ⟨ls', e, _⟩ := C48_word w rest p ls q' hw hk hr
      exact ⟨ls', by simpa using e⟩
    | cons c bl ih =>
      intro p hb hr
      have hc := hb c (by simp)
      have hpw : (∃ n t, pick (rules .initial) (c :: (bl ++ (w ++ rest))) = some (n, .ret t)) →
          False := by
        rintro ⟨n, t, hp⟩
        exact pick_blank_ne c _ hc n t hp
      have hpn : ¬ NumStart (c :: (bl ++ (w ++ rest))) := by
        intro hns
        rcases head_numStart _ _ hns with h | h <;> rcases hc with rfl | rfl | rfl | rfl <;>
          exact absurd h (by decide)
      generalize hs : c :: bl ++ (w ++ rest) = s at hr
      cases hr with
      | done => simp at hs
      | white _ hr =>
        simp at hs
        obtain ⟨_, rfl⟩ := hs
        obtain ⟨ls', e⟩ := ih (p + 1) (fun c hc => hb c (by simp [hc])) hr
        refine ⟨ls', ?_⟩
        rw [e]
        simp only [List.length_cons]
        congr 2
        omega
      | tok _ _ hp _ => rw [← hs] at hp; exact absurd ⟨_, _, hp⟩ hpw
      | toReal _ _ hns _ => rw [← hs] at hns; exact absurd hns hpn
  rw [List.append_assoc] at h2
  obtain ⟨ls', e⟩ := key bl 0 hb h2
  refine ⟨ls', ⟨q', st.stack⟩, ?_⟩
  rw [h1, e]
  simp

example : WholeWord "CaLL".toList " x".toList ∧ ¬ KindPrefix "CaLL".toList " x".toList ∧
    wordTag "CaLL".toList = Tag.KW_CALL := by
  refine ⟨⟨⟨'C', "aLL".toList, rfl, by decide, by decide⟩, by decide⟩, ?_, by decide +kernel⟩
  rintro ⟨h, _⟩
  revert h
  decide

end FLPR
