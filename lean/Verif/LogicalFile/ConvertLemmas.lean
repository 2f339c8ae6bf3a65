import Verif.LogicalFile.ConvertSpec
import Verif.LogicalFile.ScanLemmas
/-!
# What the analysis of a fixed-format Fortran line leaves in the fields
-/

namespace FLPR
open Spec

/-- A blank or a tab. -/
def Blk (c : Char) : Prop := c = ' ' ∨ c = '\t'

/-- The fields of a Fortran line analysed in fixed format with context `pd`. -/
structure FixLine (pd : Char) (f : FileLine) : Prop where
  delim : validDelim f.open_delim = true
  notCont : f.bits.continued = false
  main_ne : f.main_txt ≠ []
  rs : ∀ c ∈ f.right_space, Blk c
  last : f.open_delim = NUL → ∀ c, f.main_txt.getLast? = some c → c ≠ ' ' ∧ c ≠ '\t'
  rsOpen : f.open_delim ≠ NUL → f.right_space = []
  state : ctxOf f.open_delim = quoteState (ctxOf pd) f.main_txt
  noBang : ∀ k, quoteState (ctxOf pd) (f.main_txt.take k) = none → f.main_txt[k]? ≠ some '!'
  right : f.right_txt = [] ∨ ∃ w c t, f.right_txt = w ++ c :: t ∧ (∀ x ∈ w, Blk x) ∧
    (c = '!' ∨ c = '&')
  asciiM : AsciiStr f.main_txt
  asciiR : AsciiStr f.right_txt
  left :
    (f.left_txt = [] ∧ f.bits.label = false ∧ f.bits.continuation = false ∧
      (∀ c ∈ f.left_space, Blk c) ∧ (∃ c t, f.main_txt = c :: t ∧ isSpace c = false) ∧
      ¬ startsInclude f.main_txt) ∨
    (∃ w d ds, f.left_txt = w ++ d :: ds ∧ (∀ c ∈ w, c = ' ') ∧ isDigit d = true ∧
      (∀ c ∈ ds, isDigit c = true) ∧ f.left_txt.length ≤ 6 ∧ f.bits.label = true ∧
      f.bits.continuation = false ∧ (∀ c ∈ f.left_space, Blk c) ∧
      (pd = NUL → ∃ c t, f.main_txt = c :: t ∧ isSpace c = false)) ∨
    (∃ c, f.left_txt = blanks 5 ++ [c] ∧ isSpace c = false ∧ f.bits.label = false ∧
      (f.bits.continuation = true ↔ c ≠ '0') ∧ (∀ c ∈ f.left_space, Blk c) ∧
      (pd = NUL → ∃ c t, f.main_txt = c :: t ∧ isSpace c = false) ∧
      (pd ≠ NUL → f.left_space = []))

theorem blk_space {c : Char} (h : Blk c) : isSpace c = true := by
  rcases h with rfl | rfl <;> rfl

theorem blk_blank {c : Char} (h : Blk c) : isBlankChar c = true := by
  rcases h with rfl | rfl <;> rfl

/-- Blanks do not change the character context. -/
theorem quoteStep_blk (ctx : Option Char) (hq : ∀ q, ctx = some q → q = '\'' ∨ q = '"') {c : Char}
    (h : Blk c) : quoteStep ctx c = ctx := by
  cases ctx with
  | none => rcases h with rfl | rfl <;> rfl
  | some q =>
    have := hq q rfl
    unfold quoteStep
    dsimp only
    rw [if_neg]
    rintro rfl
    rcases h with rfl | rfl <;> revert this <;> decide

theorem quoteStep_valid (ctx : Option Char) (hq : ∀ q, ctx = some q → q = '\'' ∨ q = '"') (c : Char) :
    ∀ q, quoteStep ctx c = some q → q = '\'' ∨ q = '"' := by
  intro q
  unfold quoteStep
  cases ctx with
  | none => dsimp only; split <;> intro h <;> simp at h; subst h; assumption
  | some r => dsimp only; split <;> intro h <;> simp at h; subst h; exact hq r rfl

theorem quoteState_valid (s : Str) : ∀ (ctx : Option Char),
    (∀ q, ctx = some q → q = '\'' ∨ q = '"') →
    ∀ q, quoteState ctx s = some q → q = '\'' ∨ q = '"' := by
  induction s with
  | nil => intro ctx h q hq; exact h q hq
  | cons c s ih => intro ctx h; exact ih _ (quoteStep_valid ctx h c)

theorem ctx_valid {d : Char} (h : validDelim d = true) :
    ∀ q, ctxOf d = some q → q = '\'' ∨ q = '"' := by
  intro q hq
  rw [validDelim_iff] at h
  unfold ctxOf at hq
  split at hq
  · simp at hq
  · rename_i hn
    simp at hq; subst hq
    rcases h with h | h | h
    · exact absurd h hn
    · exact .inr h
    · exact .inl h

theorem quoteState_append (ctx : Option Char) (s t : Str) :
    quoteState ctx (s ++ t) = quoteState (quoteState ctx s) t := by
  simp [quoteState]

theorem quoteState_blks (s : Str) (hs : ∀ c ∈ s, Blk c) : ∀ (ctx : Option Char),
    (∀ q, ctx = some q → q = '\'' ∨ q = '"') → quoteState ctx s = ctx := by
  induction s with
  | nil => intro ctx _; rfl
  | cons c s ih =>
    intro ctx h
    show quoteState (quoteStep ctx c) s = ctx
    rw [quoteStep_blk ctx h (hs c (by simp))]
    exact ih (fun c hc => hs c (by simp [hc])) ctx h

theorem mem_takeWhile_prop {p : Char → Bool} {s : Str} {c : Char} (h : c ∈ s.takeWhile p) :
    p c = true := by
  have := List.all_takeWhile (p := p) (l := s)
  rw [List.all_eq_true] at this
  exact this c h

/-- Tab expansion leaves no tab in the control columns. -/
theorem detab_no_tab (raw : Str) : '\t' ∉ (detab raw).take 6 := by
  unfold detab
  dsimp only
  have hpre : ∀ c ∈ raw.takeWhile (· != '\t'), c ≠ '\t' := by
    intro c hc
    have := mem_takeWhile_prop hc
    simpa using this
  split
  · rename_i h
    rw [List.append_assoc, List.take_append]
    intro hm
    rcases List.mem_append.mp hm with hm | hm
    · exact hpre _ (List.mem_of_mem_take hm) rfl
    · rw [List.take_append] at hm
      rcases List.mem_append.mp hm with hm | hm
      · have := List.mem_of_mem_take hm
        unfold blanks at this
        exact absurd (List.eq_of_mem_replicate this) (by decide)
      · have hn : ((raw.dropWhile (· != '\t')).takeWhile (· == '\t')).length ≥ 1 := by
          cases hd : raw.dropWhile (· != '\t') with
          | nil => exact absurd hd h.1
          | cons a as =>
            have ha : a = '\t' := by
              have := List.head?_dropWhile_not (fun c => c != '\t') raw
              rw [hd] at this
              simpa using this
            subst ha
            simp
        have : 6 - (raw.takeWhile (· != '\t')).length -
            (blanks (6 * ((raw.dropWhile (· != '\t')).takeWhile (· == '\t')).length)).length = 0 := by
          unfold blanks
          simp
          omega
        rw [this] at hm
        simp at hm
  · rename_i h
    rw [not_and_or] at h
    intro hm
    rcases h with h | h
    · have hd : raw.dropWhile (· != '\t') = [] := not_not.mp h
      have : raw.takeWhile (· != '\t') = raw := by
        have e := List.takeWhile_append_dropWhile (p := (· != '\t')) (l := raw)
        rw [hd, List.append_nil] at e; exact e
      rw [← this] at hm
      exact hpre _ (List.mem_of_mem_take hm) rfl
    · have e := List.takeWhile_append_dropWhile (p := (· != '\t')) (l := raw)
      rw [← e, List.take_append] at hm
      have h0 : 6 - (raw.takeWhile (· != '\t')).length = 0 := by omega
      rw [h0] at hm
      simp only [List.take_zero, List.append_nil] at hm
      exact hpre _ (List.mem_of_mem_take hm) rfl

theorem detab_mem {raw : Str} {c : Char} (h : c ∈ detab raw) : c ∈ raw ∨ c = ' ' := by
  unfold detab at h
  dsimp only at h
  split at h
  · simp only [List.mem_append] at h
    rcases h with (h | h) | h
    · exact .inl ((List.takeWhile_sublist _).mem h)
    · unfold blanks at h; exact .inr (List.eq_of_mem_replicate h)
    · exact .inl ((List.dropWhile_sublist _).mem ((List.dropWhile_sublist _).mem h))
  · exact .inl h

/-- The break test looks at the text up to the place only. -/
theorem fixedBreak_take {ctx : Option Char} {s : Str} {n k : Nat} (hk : k < n)
    (h : IsFixedBreak ctx (s.take n) k) : IsFixedBreak ctx s k := by
  obtain ⟨h1, h2⟩ := h
  refine ⟨?_, ?_⟩
  · rw [List.take_take, Nat.min_eq_left (by omega)] at h1; exact h1
  · rw [List.getElem?_take_of_lt hk] at h2; exact h2

theorem startsInclude_prefix {m s : Str} (h : startsInclude m) : startsInclude (m ++ s) := by
  obtain ⟨h1, q, r, h2, h3⟩ := h
  have hl : 7 ≤ m.length := by
    have := congrArg List.length h1
    simp at this; omega
  refine ⟨?_, q, r ++ s, ?_, h3⟩
  · rw [List.take_append_of_le_length hl]; exact h1
  · rw [List.drop_append_of_le_length hl]
    have : ∀ (a : Str), a.dropWhile (· == ' ') = q :: r →
        (a ++ s).dropWhile (· == ' ') = q :: r ++ s := by
      intro a
      induction a with
      | nil => intro h; simp at h
      | cons c a ih =>
        intro h
        rw [List.cons_append, List.dropWhile_cons]
        rw [List.dropWhile_cons] at h
        by_cases hc : (c == ' ') = true
        · rw [if_pos hc] at h ⊢
          exact ih h
        · rw [if_neg hc] at h ⊢
          rw [← List.cons_append, h]
    exact this _ h2

theorem indent_cons {e : Str} {c0 : Char} {rest : Str} (hb : body e = c0 :: rest) :
    isBlankChar c0 = false := by
  unfold body at hb
  have := List.head?_dropWhile_not isBlankChar e
  rw [hb] at this
  simpa using this

/-- What the fields of a fixed-format Fortran line hold. -/
theorem fixed_line {ln : Int} {raw : Str} {pd : Char} {lc : Int} {f : FileLine}
    (hd : validDelim pd = true) (h : analyzeFixed ln raw pd lc = .ok f) (hf : f.isFortran = true)
    (hp : PlainFixed lc raw) : FixLine pd f := by
  have hk := (C44_fixed_category ln raw pd lc f h .fortran).mp hf
  have hs := fixedStart_lt (decide (pd ≠ NUL)) (hp.text _ hk)
  obtain ⟨l1, l2, l3, l4, l5, l6, l7⟩ := C44_fixed_left ln raw pd lc f h hk
  obtain ⟨c0, rest, lt, b, hb, hl, hbody⟩ := fixed_body h hk
  obtain ⟨-, a2, -, -, a5, a6, a7, a8, a9, a10⟩ := analyzeFixedBody_spec hd hs hbody
  have hnotincl : ¬ (indent (detab raw) ≠ 5 ∧ startsInclude (body (detab raw))) := by
    intro hx
    have hcat := hk
    unfold fixedCat at hcat
    rw [if_neg (by rw [hb]; simp)] at hcat
    split at hcat
    · simp at hcat
    · simp at hcat
  set e := detab raw with he
  have hwhite : ∀ c ∈ e, isSpace c = true → c = ' ' ∨ c = '\t' := by
    intro c hc hsp
    rcases detab_mem (he ▸ hc) with h | h
    · exact hp.white c h hsp
    · exact .inl h
  have hascii : AsciiStr e := by
    intro c hc
    rcases detab_mem (he ▸ hc) with h | h
    · exact hp.ascii c h
    · subst h; rfl
  have hul := usedCols_le lc e
  set st := fixedStart (decide (pd ≠ NUL)) e with hst
  -- main and right space are a part of the text
  have hpart : ∃ k, f.main_txt ++ f.right_space = (e.drop st).take k := by
    rcases a10 with ⟨k, k1, k2, _⟩ | ⟨k1, _⟩
    · refine ⟨min k (usedCols lc e - st), ?_⟩
      rw [k1, List.drop_take, List.take_take]
    · exact ⟨usedCols lc e - st, by rw [k1, List.drop_take]⟩
  obtain ⟨n, hn⟩ := hpart
  have hmemM : ∀ c ∈ f.main_txt ++ f.right_space, c ∈ e := by
    intro c hc
    rw [hn] at hc
    exact List.mem_of_mem_drop (List.mem_of_mem_take hc)
  have hstate : ctxOf f.open_delim = quoteState (ctxOf pd) f.main_txt := by
    have e1 : ctxOf f.open_delim = quoteState (ctxOf pd) (f.main_txt ++ f.right_space) := by
      rcases a10 with ⟨k, k1, k2, k3, k4, k5, k6⟩ | ⟨k1, k2, k3, k4⟩
      · rw [k1, k3.1, k5]; rfl
      · rw [k3, k1]
    rw [e1, quoteState_append, quoteState_blks _ a7 _ (quoteState_valid _ _ (ctx_valid hd))]
  have hnob : ∀ k, quoteState (ctxOf pd) (f.main_txt.take k) = none →
      f.main_txt[k]? ≠ some '!' := by
    intro k h1 h2
    have hlt : k < f.main_txt.length := by
      by_contra hc
      rw [List.getElem?_eq_none (by omega)] at h2; simp at h2
    have hbr : IsFixedBreak (ctxOf pd) (f.main_txt ++ f.right_space) k := by
      refine ⟨?_, ?_⟩
      · rw [List.take_append_of_le_length (by omega)]; exact h1
      · rw [List.getElem?_append_left hlt]; exact h2
    rcases a10 with ⟨j, k1, k2, k3, k4, _⟩ | ⟨k1, k2, _⟩
    · have hjl : k < j := by
        have := congrArg List.length k1
        simp at this
        omega
      rw [k1] at hbr
      exact k4 k hjl (fixedBreak_take hjl hbr)
    · rw [k1] at hbr
      exact k2 k hbr
  have hright : f.right_txt = [] ∨ ∃ w c t, f.right_txt = w ++ c :: t ∧ (∀ x ∈ w, Blk x) ∧
      (c = '!' ∨ c = '&') := by
    rcases a10 with ⟨k, k1, k2, k3, k4, k5, k6⟩ | ⟨k1, k2, k3, k4⟩
    · right
      have hg : e[st + k]? = some '!' := by
        have := k3.2
        rw [List.getElem?_drop, List.getElem?_take_of_lt (by omega)] at this
        exact this
      obtain ⟨hlt, hge⟩ := List.getElem?_eq_some_iff.mp hg
      refine ⟨[], '!', e.drop (st + k + 1), ?_, by simp, .inl rfl⟩
      rw [k6, List.drop_eq_getElem_cons hlt, hge]; rfl
    · rw [k4]
      unfold overflowText
      cases hbo : body (e.drop (usedCols lc e)) with
      | nil => exact .inl rfl
      | cons c t =>
        right
        dsimp only
        split
        · rename_i hc
          refine ⟨(e.drop (usedCols lc e)).takeWhile isBlankChar, c, t, ?_, ?_, hc.symm⟩
          · rw [← hbo]
            exact (List.takeWhile_append_dropWhile).symm
          · intro x hx
            have hx1 := mem_takeWhile_prop hx
            exact hwhite x (List.mem_of_mem_drop ((List.takeWhile_sublist _).mem hx))
              (blank_isSpace x hx1)
        · exact ⟨[], '!', ' ' :: e.drop (usedCols lc e), rfl, by simp, .inl rfl⟩
  have hasciiR : AsciiStr f.right_txt := by
    rcases a10 with ⟨k, k1, k2, k3, k4, k5, k6⟩ | ⟨k1, k2, k3, k4⟩
    · rw [k6]; exact hascii.drop _
    · rw [k4]
      unfold overflowText
      split
      · intro c hc; simp at hc
      · split
        · exact hascii.drop _
        · intro c hc
          simp only [List.mem_cons] at hc
          rcases hc with rfl | rfl | hc
          · rfl
          · rfl
          · exact hascii.drop _ c hc
  have hne : f.main_txt ≠ [] ∨ (f.open_delim = NUL ∧ pd = NUL) := by
    by_cases hm : f.main_txt = []
    · right
      have hr : f.right_space ≠ [] := by intro hr; exact a6 (by rw [hm, hr]; rfl)
      have hod : f.open_delim = NUL := by
        by_contra hod
        exact hr (a9 hod)
      refine ⟨hod, ?_⟩
      rw [hod, hm] at hstate
      by_contra hpd
      rw [ctxOf_ne hpd] at hstate
      simp [quoteState, ctxOf_NUL] at hstate
    · exact .inl hm
  -- the first character of the text
  have hhead : ∀ x, e[st]? = some x → isSpace x = false →
      ∃ t, f.main_txt = x :: t := by
    intro x hx hsp
    have hg : (f.main_txt ++ f.right_space)[0]? = some x := by
      have h0 : 0 < n := by
        rcases Nat.eq_zero_or_pos n with h0 | h0
        · rw [h0] at hn; simp at hn; exact absurd (by simp [hn]) a6
        · exact h0
      rw [hn, List.getElem?_take_of_lt h0, List.getElem?_drop]; exact hx
    cases hm : f.main_txt with
    | nil =>
      rw [hm] at hg
      cases hr : f.right_space with
      | nil => rw [hr] at hg; simp at hg
      | cons y ys =>
        rw [hr] at hg
        simp at hg
        subst hg
        have := blk_space (a7 y (by rw [hr]; simp))
        rw [this] at hsp; simp at hsp
    | cons y ys =>
      rw [hm] at hg
      simp at hg
      subst hg
      exact ⟨ys, rfl⟩
  have hstlt : st < e.length := by omega
  have hskip : ∀ r, st = r + ((e.drop r).takeWhile isSpace).length →
      ∃ c t, f.main_txt = c :: t ∧ isSpace c = false := by
    intro r hr
    have hx : e[st]? = some (e[st]) := List.getElem?_eq_getElem hstlt
    have hsp : isSpace e[st] = false := by
      have := List.head?_dropWhile_not isSpace (e.drop r)
      rw [← drop_takeWhile_length, List.drop_drop, ← hr, List.head?_drop, hx] at this
      simpa using this
    obtain ⟨t, ht⟩ := hhead _ hx hsp
    exact ⟨_, t, ht, hsp⟩
  have hls : ∀ r, r ≤ 6 → st = r + ((e.drop r).takeWhile isSpace).length →
      ∀ c ∈ f.left_space, Blk c := by
    intro r hr6 hr c hc
    rw [a2] at hc
    split at hc
    · have : (e.drop 6).take (st - 6) = ((e.drop r).takeWhile isSpace).drop (6 - r) := by
        have e1 : (e.drop r).takeWhile isSpace = (e.drop r).take (st - r) := by
          rw [← take_takeWhile_length]; congr 1; omega
        rw [e1, List.drop_take, List.drop_drop]
        congr 1
        · omega
        · congr 1; omega
      rw [this] at hc
      have hc1 := List.mem_of_mem_drop hc
      exact hwhite c (List.mem_of_mem_drop ((List.takeWhile_sublist _).mem hc1))
        (mem_takeWhile_prop hc1)
    · simp at hc
  have hc0 := indent_cons hb
  have hc0sp : isSpace c0 = false := by
    by_contra hx
    have hx : isSpace c0 = true := by simpa using hx
    have hm : c0 ∈ e := by
      have : c0 ∈ body e := by rw [hb]; simp
      exact (List.dropWhile_sublist _).mem this
    have := blk_blank (hwhite c0 hm hx)
    rw [hc0] at this; simp at this
  have hget : e[indent e]? = some c0 := by
    rw [← List.head?_drop, drop_indent, hb]; rfl
  have hbl : ∀ k, k ≤ 6 → ∀ c ∈ e.take (min k (indent e)), c = ' ' := by
    intro k hk6 c hc
    have h1 : c ∈ e.take (indent e) := by
      have : e.take (min k (indent e)) = (e.take (indent e)).take k := by
        rw [List.take_take]
      rw [this] at hc
      exact List.mem_of_mem_take hc
    rw [take_indent] at h1
    have h2 := hwhite c ((List.takeWhile_sublist _).mem h1)
      (blank_isSpace c (mem_takeWhile_prop h1))
    rcases h2 with h2 | h2
    · exact h2
    · exfalso
      subst h2
      have : '\t' ∈ e.take 6 := by
        have : e.take (min k (indent e)) = (e.take 6).take (min k (indent e)) := by
          rw [List.take_take]; congr 1; omega
        rw [this] at hc
        exact List.mem_of_mem_take hc
      exact detab_no_tab raw this
  have hleft :
    (f.left_txt = [] ∧ f.bits.label = false ∧ f.bits.continuation = false ∧
      (∀ c ∈ f.left_space, Blk c) ∧ (∃ c t, f.main_txt = c :: t ∧ isSpace c = false) ∧
      ¬ startsInclude f.main_txt) ∨
    (∃ w d ds, f.left_txt = w ++ d :: ds ∧ (∀ c ∈ w, c = ' ') ∧ isDigit d = true ∧
      (∀ c ∈ ds, isDigit c = true) ∧ f.left_txt.length ≤ 6 ∧ f.bits.label = true ∧
      f.bits.continuation = false ∧ (∀ c ∈ f.left_space, Blk c) ∧
      (pd = NUL → ∃ c t, f.main_txt = c :: t ∧ isSpace c = false)) ∨
    (∃ c, f.left_txt = blanks 5 ++ [c] ∧ isSpace c = false ∧ f.bits.label = false ∧
      (f.bits.continuation = true ↔ c ≠ '0') ∧ (∀ c ∈ f.left_space, Blk c) ∧
      (pd = NUL → ∃ c t, f.main_txt = c :: t ∧ isSpace c = false) ∧
      (pd ≠ NUL → f.left_space = [])) := by
    have hlab5 : HasFixedLabel e → indent e ≠ 5 := fun h => by have := h.1; omega
    by_cases h5 : indent e = 5
    · right; right
      have hnl : ¬ HasFixedLabel e := fun h => hlab5 h h5
      have hst6 : (pd = NUL → st = 6 + ((e.drop 6).takeWhile isSpace).length) ∧
          (pd ≠ NUL → st = 6) := by
        constructor
        · intro hpd
          rw [hst]; unfold fixedStart; simp [h5, hpd]
        · intro hpd
          rw [hst]; unfold fixedStart; simp [h5, hpd]
      refine ⟨c0, ?_, hc0sp, ?_, ?_, ?_, ?_, ?_⟩
      · rw [l5 h5]
        rw [h5] at hget
        obtain ⟨h5l, h5e⟩ := List.getElem?_eq_some_iff.mp hget
        rw [List.take_succ_eq_append_getElem h5l, h5e]
        congr 1
        have hb5 := hbl 5 (by omega)
        rw [h5, Nat.min_self] at hb5
        have hlen : (e.take 5).length = 5 := by simp; omega
        rw [all_space_blanks hb5, hlen]
      · have := l1.not.mpr hnl; simpa using this
      · rw [l2, hb]; simp [h5]
      · by_cases hpd : pd = NUL
        · exact hls 6 (by omega) (hst6.1 hpd)
        · intro c hc
          rw [a2, hst6.2 hpd] at hc; simp at hc
      · intro hpd; exact hskip 6 (hst6.1 hpd)
      · intro hpd
        rw [a2, hst6.2 hpd]; simp
    · by_cases hlab : HasFixedLabel e
      · right; left
        have hll : indent e + fixedLabelLen e ≤ 6 := by
          have h1 := hlab.1
          have : fixedLabelLen e ≤ 6 - indent e := by
            unfold fixedLabelLen
            refine le_trans (List.takeWhile_prefix _).length_le ?_
            simp only [List.length_take]
            omega
          omega
        have hst6 : (pd = NUL → st = (indent e + fixedLabelLen e) +
              ((e.drop (indent e + fixedLabelLen e)).takeWhile isSpace).length) ∧
            (pd ≠ NUL → st = indent e + fixedLabelLen e) := by
          constructor
          · intro hpd
            rw [hst]; unfold fixedStart; simp [h5, hpd, hlab]
          · intro hpd
            rw [hst]; unfold fixedStart; simp [h5, hpd, hlab]
        have hc0d : isDigit c0 = true := by
          obtain ⟨c, hc, hcd⟩ := hlab.2
          rw [hb] at hc; simp at hc; subst hc; exact hcd
        have hsplit : e.take (indent e + fixedLabelLen e) = e.take (indent e) ++
            ((body e).take (6 - indent e)).takeWhile isDigit := by
          rw [List.take_add, drop_indent]
          congr 1
          unfold fixedLabelLen
          have h1 := take_takeWhile_length isDigit ((body e).take (6 - indent e))
          rw [List.take_take, Nat.min_eq_left] at h1
          · exact h1
          · refine le_trans (List.takeWhile_prefix _).length_le ?_
            simp only [List.length_take]; omega
        have h65 : ∃ m, 6 - indent e = m + 1 := ⟨5 - indent e, by have := hlab.1; omega⟩
        obtain ⟨m, hm⟩ := h65
        refine ⟨e.take (indent e), c0, (rest.take m).takeWhile isDigit, ?_, ?_, hc0d, ?_, ?_, ?_,
          ?_, ?_, ?_⟩
        · rw [l6 hlab, hsplit, hb, hm, List.take_succ_cons, List.takeWhile_cons_of_pos hc0d]
        · have := hbl 6 (by omega)
          rw [Nat.min_eq_right (by have := hlab.1; omega)] at this
          exact this
        · intro c hc; exact mem_takeWhile_prop hc
        · rw [l6 hlab]; simp; omega
        · exact l1.mpr hlab
        · have : ¬ f.bits.continuation = true := by rw [l2]; exact fun h => h5 h.1
          simpa using this
        · by_cases hpd : pd = NUL
          · exact hls _ hll (hst6.1 hpd)
          · intro c hc
            rw [a2, hst6.2 hpd, if_neg (by omega)] at hc; simp at hc
        · intro hpd; exact hskip _ (hst6.1 hpd)
      · left
        have hst0 : st = indent e := by
          rw [hst]; unfold fixedStart; simp [h5, hlab]
        obtain ⟨t, ht⟩ := hhead c0 (by rw [hst0]; exact hget) hc0sp
        refine ⟨l7 h5 hlab, ?_, ?_, ?_, ⟨c0, t, ht, hc0sp⟩, ?_⟩
        · have := l1.not.mpr hlab; simpa using this
        · have : ¬ f.bits.continuation = true := by rw [l2]; exact fun h => h5 h.1
          simpa using this
        · intro c hc
          rw [a2] at hc
          split at hc
          · have hc1 : c ∈ e.take (indent e) := by
              rw [hst0] at hc
              rw [← List.drop_take] at hc
              exact List.mem_of_mem_drop hc
            rw [take_indent] at hc1
            exact hwhite c ((List.takeWhile_sublist _).mem hc1)
              (blank_isSpace c (mem_takeWhile_prop hc1))
          · simp at hc
        · intro hinc
          apply hnotincl
          refine ⟨h5, ?_⟩
          have hpre : body e = f.main_txt ++ (f.right_space ++ (e.drop st).drop n) := by
            rw [← List.append_assoc, hn, List.take_append_drop, hst0, drop_indent]
          rw [hpre]
          exact startsInclude_prefix hinc
  refine ⟨a5, l3, ?_, a7, a8, a9, hstate, hnob, hright, ?_, hasciiR, hleft⟩
  · rcases hne with hne | ⟨_, hpd⟩
    · exact hne
    · rcases hleft with ⟨_, _, _, _, ⟨c, t, ht, _⟩, _⟩ | ⟨_, _, _, _, _, _, _, _, _, _, _, h9⟩ |
        ⟨_, _, _, _, _, _, h7, _⟩
      · rw [ht]; simp
      · obtain ⟨c, t, ht, _⟩ := h9 hpd; rw [ht]; simp
      · obtain ⟨c, t, ht, _⟩ := h7 hpd; rw [ht]; simp
  · intro c hc
    exact hascii c (hmemM c (by simp [hc]))

end FLPR
