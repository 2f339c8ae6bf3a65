import Verif.Lexer.Blank
/-!
# Properties of the scanner (C22, C47)
-/

namespace FLPR
open Flex RE

namespace Spec

/-- The tokens tile the text that starts at offset `p`: each token is a non-empty piece of the text,
the pieces follow each other in order, each records the offset of its end, and between them there
are only blanks; no token starts or ends with a blank. -/
inductive Tiles : Nat → Str → List Lexeme → Prop where
  | nil (p : Nat) : Tiles p [] []
  | blank {p c s ls} : Blank c → Tiles (p + 1) s ls → Tiles p (c :: s) ls
  | tok {p t s ls tag} : t ≠ [] → (∀ c ∈ t.head?, ¬ Blank c) → (∀ c ∈ t.getLast?, ¬ Blank c) →
      Tiles (p + t.length) s ls →
      Tiles p (t ++ s) (⟨tag, t, p + t.length⟩ :: ls)

end Spec
open Spec

theorem tiles_take {p n : Nat} {s : Str} {ls : List Lexeme} {tag : Int} (h0 : 0 < n)
    (hle : n ≤ s.length) (he : NoBlankEnds (s.take n)) (h : Tiles (p + n) (s.drop n) ls) :
    Tiles p s (⟨tag, s.take n, p + n⟩ :: ls) := by
  have hl : (s.take n).length = n := by simp; omega
  have hne : s.take n ≠ [] := by
    intro e; rw [e] at hl; simp at hl; omega
  have := Tiles.tok (p := p) (tag := tag) (t := s.take n) (s := s.drop n) hne
    he.1 he.2 (by rw [hl]; exact h)
  rw [hl, List.take_append_drop] at this
  exact this

theorem run_tiles {q q' : Cond} {p : Nat} {s : Str} {ls : List Lexeme} (h : Run q p s ls q') :
    Tiles p s ls := by
  induction h with
  | done q pos => exact .nil pos
  | white hc _ ih => exact .blank hc ih
  | tok h0 hle hp _ ih => exact tiles_take h0 hle (pick_ends _ _ _ hp) ih
  | toReal _ _ _ _ ih => exact ih
  | signif h0 hle _ _ hm _ ih =>
    exact tiles_take h0 hle (hm.elim signif_ends digits_ends) ih
  | expo hc h0 hle hs _ ih =>
    exact Tiles.tok (t := [_]) (by simp) (expLetter_ends _ hc).1 (expLetter_ends _ hc).2
      (tiles_take h0 hle (signed_ends hs) ih)
  | kind h0 hle hk _ ih =>
    exact Tiles.tok (t := ['_']) (by simp) (by simp [Blank]) (by simp [Blank])
      (tiles_take h0 hle (kind_ends hk) ih)
  | toInit _ _ _ _ ih => exact ih

/-- The conditions the scanner can be in between lines. -/
def Spec.LineState (st : State) : Prop := Between st.cond

/-- **C47** (no text is lost) For every ASCII text and every state the scanner can be in between two
lines, scanning ends, and the tokens tile the text (up to the first NUL). -/
theorem C47_tiles (st : State) (text : Str) (hst : LineState st) (ha : AsciiStr text) :
    ∃ ls st', scan st text = .ok (ls, st') ∧ LineState st' ∧
      Tiles 0 (text.takeWhile (fun c => c != NUL)) ls := by
  obtain ⟨ls, q', h1, h2, h3⟩ := scan_ok st text hst
    (fun c hc => ha c ((List.takeWhile_prefix _).subset hc))
  exact ⟨ls, _, h1, h3, run_tiles h2⟩

/-- **C47** (non-ASCII text) A byte above 127 makes the scanner read outside of its tables. -/
theorem C47_non_ascii (st : State) (text : Str)
    (h : ∃ c ∈ text.takeWhile (fun c => c != NUL), isAscii c = false) :
    scan st text = .error .ub := by
  obtain ⟨c, hc, ha⟩ := h
  unfold scan
  simp only
  rw [if_neg]
  intro h
  have := List.all_eq_true.mp h c hc
  rw [ha] at this
  simp at this

example : LineState {} ∧ AsciiStr "x = 1.0e5 'a b'".toList := by
  refine ⟨Or.inl rfl, ?_⟩
  unfold AsciiStr
  decide

theorem tiles_pieces {p : Nat} {s : Str} {ls : List Lexeme} (h : Tiles p s ls) :
    ∀ i (hi : i < ls.length), ∃ a, p ≤ a ∧ ls[i].stop = a + ls[i].text.length ∧
      ls[i].stop ≤ p + s.length ∧ ls[i].text ≠ [] ∧
      (s.drop (a - p)).take ls[i].text.length = ls[i].text ∧
      (∀ j (hj : j < ls.length), j < i → ls[j].stop ≤ a) ∧
      (∀ k, (i = 0 → p ≤ k) → (∀ j (hj : j < ls.length), j + 1 = i → ls[j].stop ≤ k) → k < a →
        ∃ c, s[k - p]? = some c ∧ Blank c) := by
  induction h with
  | nil p => intro i hi; simp at hi
  | @blank p c s ls hc _ ih =>
    intro i hi
    obtain ⟨a, h1, h2, h3, h4, h5, h6, h7⟩ := ih i hi
    refine ⟨a, by omega, h2, by simp; omega, h4, ?_, h6, ?_⟩
    · have : a - p = (a - (p + 1)) + 1 := by omega
      rw [this, List.drop_succ_cons]; exact h5
    · intro k hk0 hk1 hka
      by_cases hkp : i = 0 ∧ k = p
      · refine ⟨c, ?_, hc⟩
        rw [hkp.2]; simp
      · have hpk : p + 1 ≤ k := by
          rcases Nat.eq_zero_or_pos i with hi0 | hi0
          · have := hk0 hi0; omega
          · have := hk1 (i - 1) (by omega) (by omega)
            obtain ⟨a', g1, g2, _⟩ := ih (i - 1) (by omega)
            omega
        obtain ⟨d, hd, hb⟩ := h7 k (by omega) hk1 hka
        refine ⟨d, ?_, hb⟩
        have : k - p = (k - (p + 1)) + 1 := by omega
        rw [this, List.getElem?_cons_succ]; exact hd
  | @tok p t s ls tag hne _ _ _ ih =>
    intro i hi
    cases i with
    | zero =>
      refine ⟨p, Nat.le_refl _, rfl, by simp, hne, by simp, by omega, ?_⟩
      intro k hk _ hka
      have := hk rfl
      omega
    | succ i =>
      obtain ⟨a, h1, h2, h3, h4, h5, h6, h7⟩ := ih i (by simpa using hi)
      have hsplit : ∀ k, p + t.length ≤ k → k - p = t.length + (k - (p + t.length)) := by
        intro k hk; omega
      refine ⟨a, by omega, h2, by simpa [Nat.add_assoc] using h3, h4, ?_, ?_, ?_⟩
      · simp only [List.getElem_cons_succ]
        rw [hsplit a h1, ← List.drop_drop, List.drop_left']
        · exact h5
        · rfl
      · intro j hj hji
        cases j with
        | zero => exact h1
        | succ j => exact h6 j (by simpa using hj) (by omega)
      · intro k _ hk1 hka
        have hpk : p + t.length ≤ k := by
          rcases Nat.eq_zero_or_pos i with hi0 | hi0
          · exact hk1 0 (by simp) (by omega)
          · have := hk1 i (by simp at hi ⊢; omega) rfl
            obtain ⟨j, rfl⟩ : ∃ j, i = j + 1 := ⟨i - 1, by omega⟩
            obtain ⟨a', g1, g2, _⟩ := ih j (by simp at hi; omega)
            simp only [List.getElem_cons_succ] at this
            omega
        obtain ⟨d, hd, hb⟩ := h7 k (fun _ => hpk) (by
          intro j hj hji
          exact hk1 (j + 1) (by simpa using hj) (by omega)) hka
        refine ⟨d, ?_, hb⟩
        rw [hsplit k hpk, List.getElem?_append_right (by omega)]
        simpa using hd

/-- **C47** (each token is where it says) Token `i` is the piece of the text that ends at its recorded
offset; it is not empty, it lies behind the previous token, and every character between the two is
a blank. -/
theorem C47_pieces (st st' : State) (text : Str) (ls : List Lexeme) (hst : LineState st)
    (hnul : NUL ∉ text) (h : scan st text = .ok (ls, st')) (i : Nat) (hi : i < ls.length) :
    ∃ a, ls[i].stop = a + ls[i].text.length ∧ ls[i].text ≠ [] ∧
      (text.drop a).take ls[i].text.length = ls[i].text ∧
      (∀ j (hj : j < ls.length), j < i → ls[j].stop ≤ a) ∧
      (∀ k < a, (∀ j (hj : j < ls.length), j < i → ls[j].stop ≤ k) →
        ∃ c, text[k]? = some c ∧ Blank c) := by
  have ht : Smash.cStr text = text := by
    unfold Smash.cStr
    rw [List.takeWhile_eq_self_iff]
    intro c hc
    simp
    rintro rfl
    exact hnul hc
  have ha : ∀ c ∈ Smash.cStr text, isAscii c = true := by
    by_contra hn
    have : scan st text = .error .ub := by
      apply C47_non_ascii
      by_contra h2
      apply hn
      intro c hc
      by_contra h3
      exact h2 ⟨c, hc, by simpa using h3⟩
    rw [h] at this
    simp at this
  obtain ⟨ls', q', h1, h2, _⟩ := scan_ok st text hst ha
  rw [h] at h1
  simp at h1
  obtain ⟨rfl, _⟩ := h1
  rw [ht] at h2
  obtain ⟨a, g1, g2, g3, g4, g5, g6, g7⟩ := tiles_pieces (run_tiles h2) i hi
  refine ⟨a, g2, g4, by simpa using g5, g6, ?_⟩
  intro k hk hprev
  have := g7 k (by omega) (fun j hj hji => hprev j hj (by omega)) hk
  simpa using this

/-! ## C22: history -/

/-- Scan the lines of a history one after the other, keeping the scanner state. -/
def scanHistory (st : State) : List Str → Res State
  | [] => .ok st
  | l :: ls => do
    let r ← scan st l
    scanHistory r.2 ls

namespace Spec

/-- The text can be read as the rest of a real literal: it starts with a number, with an exponent or
with a kind suffix. -/
def ContinuesReal (s : Str) : Prop :=
  ∃ n ≤ s.length, Matches SIGNIFICAND (s.take n) ∨ Matches (plus DIGIT) (s.take n) ∨
    Matches EXPONENT (s.take n) ∨ Matches (.seq (lit ['_']) KIND) (s.take n)

end Spec

theorem scanGo_mono (fuel : Nat) (st : State) (p : Nat) (s : Str) (r : Res (List Lexeme × State))
    (h : scanGo fuel st p s = some r) : scanGo (fuel + 1) st p s = some r := by
  induction fuel generalizing st p s r with
  | zero => simp [scanGo] at h
  | succ f ih =>
    cases s with
    | nil => exact h
    | cons c cs =>
      rw [scanGo] at h ⊢
      split at h
      · exact ih _ _ _ _ h
      · exact ih _ _ _ _ h
      · split at h
        · simp at h
        · rename_i h1; rw [ih _ _ _ _ h1]; exact h
        · rename_i h1; rw [ih _ _ _ _ h1]; exact h
      · split at h
        · exact h
        · split at h
          · simp at h
          · rename_i h1; rw [ih _ _ _ _ h1]; exact h
          · rename_i h1; rw [ih _ _ _ _ h1]; exact h
      · exact ih _ _ _ _ h
      · exact ih _ _ _ _ h

theorem scanGo_mono' (fuel k : Nat) (st : State) (p : Nat) (s : Str) (r : Res (List Lexeme × State))
    (h : scanGo fuel st p s = some r) : scanGo (fuel + k) st p s = some r := by
  induction k with
  | zero => exact h
  | succ k ih => exact scanGo_mono _ _ _ _ _ ih

/-- The state in which a history leaves the scanner. -/
theorem scanHistory_state (h : List Str) (st st' : State) (hst : LineState st)
    (hr : scanHistory st h = .ok st') : LineState st' ∧ st'.stack = st.stack := by
  induction h generalizing st with
  | nil => simp [scanHistory] at hr; subst hr; exact ⟨hst, rfl⟩
  | cons l ls ih =>
    unfold scanHistory at hr
    rbind hr with x hx
    have ha : ∀ c ∈ Smash.cStr l, isAscii c = true := by
      by_contra hn
      have : scan st l = .error .ub := by
        apply C47_non_ascii
        by_contra h2
        apply hn
        intro c hc
        by_contra h3
        exact h2 ⟨c, hc, by simpa using h3⟩
      rw [hx] at this
      simp at this
    obtain ⟨ls', q', h1, _, h3⟩ := scan_ok st l hst ha
    rw [hx] at h1
    simp at h1
    subst h1
    obtain ⟨g1, g2⟩ := ih ⟨q', st.stack⟩ h3 hr
    exact ⟨g1, g2⟩

/-- Starting in the condition for reals makes no difference for a text that cannot be read as the
rest of a real literal, except when there is no text. -/
theorem scan_from_real (stk : List Cond) (text : Str) (hne : Smash.cStr text ≠ [])
    (hc : ¬ ContinuesReal (Smash.cStr text)) (ha : ∀ c ∈ Smash.cStr text, isAscii c = true) :
    scan ⟨.realParse, stk⟩ text = scan ⟨.initial, stk⟩ text := by
  obtain ⟨ls, q', h1, _, _⟩ := scan_terminates (Smash.cStr text) .initial stk 0
    (2 * (Smash.cStr text).length + 1) (Or.inl rfl) (by omega)
  unfold scan
  simp only
  rw [if_pos (List.all_eq_true.mpr ha), if_pos (List.all_eq_true.mpr ha)]
  generalize hs : Smash.cStr text = s at *
  cases s with
  | nil => simp at hne
  | cons c cs =>
    have hbegin : pick (rules .realParse) (c :: cs) = some (1, .begin .initial) := by
      rcases pick_real c cs with ⟨⟨m, h0, hle, hm⟩, _⟩ | ⟨hn, ⟨n, h0, hle, hm, hp⟩ |
        ⟨n, h0, hle, hm, hp⟩ | ⟨hp, hx⟩⟩
      · exact absurd ⟨m, hle, by tauto⟩ hc
      · exact absurd ⟨n, hle, by tauto⟩ hc
      · exact absurd ⟨n, hle, by tauto⟩ hc
      · exact hp
    have e1 : scanGo (scanFuel (c :: cs)) ⟨.realParse, stk⟩ 0 (c :: cs) =
        some (.ok (ls, ⟨q', stk⟩)) := by
      have : scanFuel (c :: cs) = (2 * (c :: cs).length + 1 + (2 * (c :: cs).length + 2)) + 1 := by
        unfold scanFuel; omega
      rw [this, scanGo]
      simp only [hbegin]
      exact scanGo_mono' _ _ _ _ _ _ h1
    have e2 : scanGo (scanFuel (c :: cs)) ⟨.initial, stk⟩ 0 (c :: cs) =
        some (.ok (ls, ⟨q', stk⟩)) := by
      have : scanFuel (c :: cs) = 2 * (c :: cs).length + 1 + (2 * (c :: cs).length + 3) := by
        unfold scanFuel; omega
      rw [this]
      exact scanGo_mono' _ _ _ _ _ _ h1
    rw [e1, e2]

/-- **C22** After any history of scanned lines, the tokens of an ASCII line are those a fresh scanner
gives, provided the line cannot be read as the rest of a real literal (it starts neither with a
number nor with an exponent such as `e1` nor with `_kind`).  Missing from the full claim: lines that
do, for which the property is false after a line that ends in a real literal. -/
theorem C22_history_partial (h : List Str) (st : State) (hr : scanHistory {} h = .ok st)
    (text : Str) (ha : AsciiStr text)
    (hc : ¬ ContinuesReal (text.takeWhile (fun c => c != NUL))) :
    ∃ ls s1 s2, scan st text = .ok (ls, s1) ∧ scan {} text = .ok (ls, s2) := by
  obtain ⟨hst, hstk⟩ := scanHistory_state h {} st (Or.inl rfl) hr
  have ha' : ∀ c ∈ Smash.cStr text, isAscii c = true :=
    fun c hc => ha c ((List.takeWhile_prefix _).subset hc)
  obtain ⟨ls, q', h1, h2, _⟩ := scan_ok {} text (Or.inl rfl) ha'
  have hst' : st = ⟨st.cond, []⟩ := by cases st; simp at hstk; simp [hstk]
  rcases hst with hq | hq
  · refine ⟨ls, ⟨q', []⟩, ⟨q', []⟩, ?_, h1⟩
    rw [hst', hq]; exact h1
  · by_cases hne : Smash.cStr text = []
    · have h0 : ∀ q : Cond, scan ⟨q, []⟩ text = .ok ([], ⟨q, []⟩) := by
        intro q
        unfold scan
        simp [hne, scanGo, scanFuel]
      exact ⟨[], _, _, by rw [hst']; exact h0 _, h0 .initial⟩
    · refine ⟨ls, ⟨q', []⟩, ⟨q', []⟩, ?_, h1⟩
      rw [hst', hq, scan_from_real [] text hne hc ha']
      exact h1

/-- A text that starts with any other character cannot be read as the rest of a real literal. -/
theorem continuesReal_head (c : Char) (cs : Str) (h : ContinuesReal (c :: cs)) :
    isDigit c = true ∨ c = '.' ∨ isExpLetter c = true ∨ c = '_' := by
  obtain ⟨n, hn, h⟩ := h
  cases n with
  | zero =>
    simp only [List.take_zero] at h
    rcases h with h | h | h | h
    · rw [m_SIGNIFICAND] at h; obtain ⟨a, b, e, _⟩ := h; simp at e
    · rw [m_digits] at h; exact absurd rfl h.1
    · rw [m_EXPONENT] at h; obtain ⟨a, b, e, _⟩ := h; simp at e
    · rw [m_underKind] at h; obtain ⟨a, e, _⟩ := h; simp at e
  | succ n =>
    rcases h with h | h | h | h
    · rcases head_numStart c cs ⟨n + 1, by omega, hn, Or.inl h⟩ with h | h
      · exact Or.inl h
      · exact Or.inr (Or.inl h)
    · rcases head_numStart c cs ⟨n + 1, by omega, hn, Or.inr h⟩ with h | h
      · exact Or.inl h
      · exact Or.inr (Or.inl h)
    · rw [m_EXPONENT] at h
      obtain ⟨d, t, e, hd, _⟩ := h
      simp at e
      exact Or.inr (Or.inr (Or.inl (e.1 ▸ hd)))
    · rw [m_underKind] at h
      obtain ⟨t, e, _⟩ := h
      simp at e
      exact Or.inr (Or.inr (Or.inr e.1))

example : scanHistory {} ["x = 1.0".toList] = .ok ⟨.realParse, []⟩ ∧
    ¬ ContinuesReal ("call f(1)".toList.takeWhile (fun c => c != NUL)) := by
  refine ⟨by decide +kernel, fun h => ?_⟩
  have := continuesReal_head 'c' "all f(1)".toList h
  revert this
  decide

/-- **C22** The history is irrelevant for every line if no line of the history leaves the scanner in
the condition for reals. -/
theorem C22_history_clean_partial (h : List Str) (st : State) (hr : scanHistory {} h = .ok st)
    (hq : st.cond = .initial) (text : Str) : scan st text = scan {} text := by
  obtain ⟨_, hstk⟩ := scanHistory_state h {} st (Or.inl rfl) hr
  have : st = {} := by cases st; simp at hstk hq; simp [hstk, hq]
  rw [this]

/-- After `x = 1.0` the statement `e1 = 2` is scanned as an exponent letter and an exponent. -/
theorem C22_history_violation :
    ∃ (h : List Str) (st : State) (text : Str), scanHistory {} h = .ok st ∧
      (scan st text).map (fun r => r.1.map (·.text)) = .ok ["e".toList, "1".toList, "=".toList, "2".toList] ∧
      (scan {} text).map (fun r => r.1.map (·.text)) = .ok ["e1".toList, "=".toList, "2".toList] :=
  ⟨["x = 1.0".toList], ⟨.realParse, []⟩, "e1 = 2".toList, by decide +kernel⟩

end FLPR
