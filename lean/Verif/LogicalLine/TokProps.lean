import Verif.LogicalLine.TokLemmas2
/-!
# Token positions (C15)
-/

namespace FLPR
open Spec Flex Smash

namespace Spec

/-- The lines that are neither comment nor blank. -/
def codeLines (layout : List FileLine) : List FileLine := layout.filter (fun f => !f.isTrivial)

/-- A layout whose statement text is ASCII without NUL, vertical tab or form feed, and starts with
no blank. -/
def PlainLayout (layout : List FileLine) : Prop :=
  (∀ f ∈ codeLines layout, ∀ c ∈ f.main_txt,
    isAscii c = true ∧ c ≠ NUL ∧ c ≠ '\x0b' ∧ c ≠ '\x0c') ∧
  (∀ f ∈ (codeLines layout).head?, ∃ c t, f.main_txt = c :: t ∧ isSpace c = false)

/-- The text the position of the `i`-th token stands for: that of the token, except for the second
half of a fused keyword, where it is that of the whole word (the first half has no position). -/
def wholeText (ts : List Tok) (i : Nat) : Str :=
  let own := ((ts[i]?).map (·.text)).getD []
  if 0 < i then
    match ts[i - 1]? with
    | some u => if u.span = none then u.text ++ own else own
    | none => own
  else own

/-- The text without blanks, tabs, carriage returns and newlines. -/
def solid (s : Str) : Str := s.filter (fun c => !(c == ' ' || c == '\t' || c == '\r' || c == '\n'))

end Spec
open Spec

theorem solid_append (s t : Str) : solid (s ++ t) = solid s ++ solid t := by simp [solid]

theorem solid_blank (c : Char) (s : Str) (h : Blank c) : solid (c :: s) = solid s := by
  rcases h with rfl | rfl | rfl | rfl <;> simp [solid]

theorem tiles_solid {p : Nat} {s : Str} {ls : List Lexeme} (h : Tiles p s ls) :
    solid (ls.flatMap (·.text)) = solid s := by
  induction h with
  | nil => rfl
  | blank hc _ ih => rw [solid_blank _ _ hc, ih]
  | tok _ _ _ _ ih => simp only [List.flatMap_cons, solid_append, ih]

theorem solid_joined (b : Bool) (ps : List Piece) :
    solid (joined b ps) = solid (ps.flatMap (·.main)) := by
  induction ps generalizing b with
  | nil => rfl
  | cons p ps ih =>
    have h1 : solid (leadBlank b p) = [] := by unfold leadBlank solid; split <;> simp
    have h2 : solid (trailBlank p) = [] := by unfold trailBlank solid; split <;> simp
    simp only [joined, solid_append, h1, h2, ih, List.flatMap_cons]
    simp

theorem laid_text {code : List FileLine} {A : Str} {pre : Int} {ls : List Lexeme} {ts : List Tok}
    (h : Laid code A pre ls ts) : ts.flatMap (·.text) = ls.flatMap (·.text) := by
  induction h with
  | nil => rfl
  | one _ h _ _ _ _ _ _ _ ih => simp [ih, h]
  | two _ _ h _ _ _ _ _ _ _ _ _ _ _ _ _ _ _ ih => simp [ih, ← h]

theorem mem_joined (b : Bool) (ps : List Piece) (c : Char) (h : c ∈ joined b ps) :
    c = ' ' ∨ ∃ p ∈ ps, c ∈ p.main := by
  induction ps generalizing b with
  | nil => simp [joined] at h
  | cons p ps ih =>
    simp only [joined, List.mem_append] at h
    rcases h with ((h | h) | h) | h
    · unfold leadBlank at h; split at h <;> simp at h; exact Or.inl h
    · exact Or.inr ⟨p, by simp, h⟩
    · unfold trailBlank at h; split at h <;> simp at h; exact Or.inl h
    · rcases ih _ h with h | ⟨q, hq, h⟩
      · exact Or.inl h
      · exact Or.inr ⟨q, by simp [hq], h⟩

/-- The tokenizing of a plain layout in terms of the scanner. -/
theorem tokenize_plain (st : State) (l : LLine) (hst : LineState st) (hp : PlainLayout l.layout) :
    ∃ ls st' ts, scan st (joined true ((codeLines l.layout).map pieceOf)) = .ok (ls, st') ∧
      Tiles 0 (joined true ((codeLines l.layout).map pieceOf)) ls ∧ LineState st' ∧
      Laid (codeLines l.layout) (joined true ((codeLines l.layout).map pieceOf)) 0 ls ts ∧
      ∀ l' : LLine, l'.tokenize st (accumAll ((codeLines l.layout).map pieceOf)) =
        .ok (({ l' with frags := ts } : LLine).initStmts, st') := by
  obtain ⟨hchars, hfirst⟩ := hp
  generalize hA : joined true ((codeLines l.layout).map pieceOf) = A
  have hmem : ∀ c ∈ A, c = ' ' ∨ (isAscii c = true ∧ c ≠ NUL ∧ c ≠ '\x0b' ∧ c ≠ '\x0c') := by
    intro c hc
    rw [← hA] at hc
    rcases mem_joined _ _ _ hc with h | ⟨p, hp, h⟩
    · exact Or.inl h
    · obtain ⟨f, hf, rfl⟩ := List.mem_map.mp hp
      exact Or.inr (hchars f hf c h)
  have hasc : AsciiStr A := by
    intro c hc
    rcases hmem c hc with rfl | h
    · decide
    · exact h.1
  have hcs : A.takeWhile (fun c => c != NUL) = A := by
    rw [List.takeWhile_eq_self_iff]
    intro c hc
    simp only [bne_iff_ne, ne_eq]
    rintro rfl
    rcases hmem _ hc with h | h
    · exact absurd h (by decide)
    · exact h.2.1 rfl
  have hvf : ∀ c ∈ A, isSpace c = true → Blank c := by
    intro c hc hs
    rcases hmem c hc with h | ⟨_, _, h2, h3⟩
    · exact Or.inl h
    · unfold isSpace at hs
      simp only [Bool.or_eq_true, beq_iff_eq] at hs
      unfold Blank
      tauto
  have hacc : (accumAll ((codeLines l.layout).map pieceOf)).accum = A := by
    rw [← hA]; exact C14_accum _
  obtain ⟨ls, st', h1, h2, h3⟩ := C47_tiles st A hst hasc
  rw [hcs] at h3
  have hstart : 0 = 0 + (A.takeWhile isSpace).length := by
    cases hc : codeLines l.layout with
    | nil => rw [← hA, hc]; rfl
    | cons f fs =>
      obtain ⟨c, t, hm, hs⟩ := hfirst f (by rw [hc]; rfl)
      rw [← hA, hc]
      simp [joined, leadBlank, pieceOf, hm, hs]
  obtain ⟨ts, h4, h5⟩ := lineTokensGo_laid (codeLines l.layout) A hA.symm hasc hvf h3 0 0 []
    (by simp) (by omega) hstart
  refine ⟨ls, st', ts, h1, h3, h2, h5, ?_⟩
  intro l'
  unfold LLine.tokenize
  rw [hacc, h1, Res.ok_bind]
  simp only [h4, Res.ok_bind, List.nil_append]

/-- Positions of the tokens, as a property of the list. -/
theorem laid_positions {code : List FileLine} {A : Str} {pre : Int} {ls : List Lexeme}
    {ts : List Tok} (h : Laid code A pre ls ts) : ∀ (v : Option Tok),
    (∀ u ∈ v, u.span ≠ none) → ∀ i t, ts[i]? = some t →
    (∀ s, t.span = some s → Addresses code s (wholeText ts i) ∧
      ∃ k : Nat, wholeText ts i = (wholeText ts i).take k ++ t.text ∧
        FilePos code s t.line (t.pos - k)) ∧
    (t.span = none → ∃ u s p, ts[i + 1]? = some u ∧ u.span = some s ∧ p ∈ fusedPairs ∧
      t.text.map lowChar = p.1.toList ∧ u.text.map lowChar = p.2.toList ∧
      IsKeyword p.1 t.token ∧ IsKeyword p.2 u.token ∧ FilePos code s t.line t.pos) := by
  induction h with
  | nil => intro v hv i t h; simp at h
  | @one pre l ls t ts s h1 h2 h3 h4 h5 h6 h7 h8 _ ih =>
    intro v hv i x hx
    cases i with
    | zero =>
      simp at hx
      subst hx
      refine ⟨fun s' hs' => ?_, fun hn => by rw [h3] at hn; simp at hn⟩
      rw [h3] at hs'
      simp at hs'
      subst hs'
      have hw : wholeText (t :: ts) 0 = t.text := by simp [wholeText]
      rw [hw, h2]
      exact ⟨h4.1, 0, by simp, by simpa using h5⟩
    | succ i =>
      rw [List.getElem?_cons_succ] at hx
      have := ih (some t) (by simp [h3]) i x hx
      have hw : wholeText (t :: ts) (i + 1) = wholeText ts i := by
        unfold wholeText
        cases i with
        | zero => simp [h3]
        | succ i => simp
      rw [hw]
      exact this
  | @two pre l ls t u ts s p h1 h2 h3 h4 h5 h6 h7 h8 h9 h10 h11 h12 h13 h14 h15 h16 h17 _ ih =>
    intro v hv i x hx
    match i with
    | 0 =>
      simp at hx
      subst hx
      refine ⟨fun s' hs' => (by rw [h8] at hs'; simp at hs'), fun _ => ?_⟩
      exact ⟨u, s, p, rfl, h11, h2, h4, h5, h6, h7, h13⟩
    | 1 =>
      simp at hx
      subst hx
      refine ⟨fun s' hs' => ?_, fun hn => by rw [h11] at hn; simp at hn⟩
      rw [h11] at hs'
      simp at hs'
      subst hs'
      have hw : wholeText (t :: u :: ts) 1 = t.text ++ u.text := by simp [wholeText, h8]
      rw [hw, h3]
      refine ⟨h12.1, t.text.length, ?_, ?_⟩
      · rw [← h3]; simp
      · rw [h15, h14, show t.pos + (t.text.length : Int) - (t.text.length : Int) = t.pos by omega]
        exact h13
    | i + 2 =>
      rw [List.getElem?_cons_succ, List.getElem?_cons_succ] at hx
      have := ih (some u) (by simp [h11]) i x hx
      have hw : wholeText (t :: u :: ts) (i + 2) = wholeText ts i := by
        unfold wholeText
        cases i with
        | zero => simp [h11]
        | succ i => simp
      rw [hw]
      exact this

theorem initFromLayout_eq (st : State) (l l' : LLine) (st' : State)
    (h : l.initFromLayout st = .ok (l', st')) :
    ∃ lab, LLine.tokenize st { l with label := lab }
      (accumAll ((codeLines l.layout).map pieceOf)) = .ok (l', st') := by
  unfold LLine.initFromLayout at h
  cases hl : l.layout with
  | nil => rw [hl] at h; simp at h
  | cons f fs =>
    rw [hl] at h
    dsimp only at h
    split at h
    · split at h
      · simp at h
      · rbind h with v hv
        exact ⟨v, h⟩
    · exact ⟨0, h⟩

/-- **C15** (outcome) Building a logical line from a plain layout succeeds, provided that a label on
the first line is a number that fits. -/
theorem C15_outcome (st : State) (l : LLine) (hst : LineState st) (hp : PlainLayout l.layout)
    (hl : ∃ f ∈ l.layout.head?, f.bits.label = true → ∃ v, stoi f.left_txt = .ok v) :
    ∃ l' st', l.initFromLayout st = .ok (l', st') ∧ LineState st' := by
  obtain ⟨ls, st', ts, _, _, hst', _, ht⟩ := tokenize_plain st l hst hp
  obtain ⟨f, hf, hlab⟩ := hl
  unfold LLine.initFromLayout
  cases hc : l.layout with
  | nil => rw [hc] at hf; simp at hf
  | cons g gs =>
    rw [hc] at hf
    simp at hf
    subst hf
    have hcode : (g :: gs).filter (fun f => !f.isTrivial) = codeLines l.layout := by
      unfold codeLines; rw [hc]
    dsimp only
    rw [hcode]
    by_cases hb : g.bits.label = true
    · obtain ⟨v, hv⟩ := hlab hb
      have hne : g.left_txt ≠ [] := by
        rintro e; rw [e] at hv; simp [stoi] at hv
      rw [if_pos hb, if_neg hne, hv, Res.ok_bind, ht]
      exact ⟨_, _, rfl, hst'⟩
    · rw [if_neg hb, ht]
      exact ⟨_, _, rfl, hst'⟩

/-- **C15** (positions) In a logical line built from a plain layout, the position of a token
addresses, among the lines that are neither comment nor blank, exactly the text of the token, or of
the whole word if the token is the second half of a fused keyword; the file line and column agree
with it.  A token without a position is the first half of a fused keyword.

The full statement addresses `layout()` and every token; see the violations. -/
theorem C15_positions_partial (st st' : State) (l l' : LLine) (hst : LineState st)
    (hp : PlainLayout l.layout) (h : l.initFromLayout st = .ok (l', st')) (i : Nat) (t : Tok)
    (ht : l'.frags[i]? = some t) :
    l'.layout = l.layout ∧
    (∀ s, t.span = some s → Addresses (codeLines l'.layout) s (wholeText l'.frags i) ∧
      ∃ k : Nat, wholeText l'.frags i = (wholeText l'.frags i).take k ++ t.text ∧
        FilePos (codeLines l'.layout) s t.line (t.pos - k)) ∧
    (t.span = none → ∃ u s p, l'.frags[i + 1]? = some u ∧ u.span = some s ∧ p ∈ fusedPairs ∧
      t.text.map lowChar = p.1.toList ∧ u.text.map lowChar = p.2.toList ∧
      IsKeyword p.1 t.token ∧ IsKeyword p.2 u.token ∧
      FilePos (codeLines l'.layout) s t.line t.pos) := by
  obtain ⟨ls, st2, ts, _, _, _, hlaid, htok⟩ := tokenize_plain st l hst hp
  obtain ⟨lab, he⟩ := initFromLayout_eq st l l' st' h
  rw [htok] at he
  simp only [Except.ok.injEq, Prod.mk.injEq] at he
  obtain ⟨rfl, rfl⟩ := he
  refine ⟨rfl, ?_⟩
  have := laid_positions hlaid none (by simp) i t ht
  exact this

/-- **C15** (without comments) If no line is a comment or blank, the positions address the layout
itself. -/
theorem C15_layout_partial (st st' : State) (l l' : LLine) (hst : LineState st)
    (hp : PlainLayout l.layout) (hnt : ∀ f ∈ l.layout, f.isTrivial = false)
    (h : l.initFromLayout st = .ok (l', st')) (i : Nat) (t : Tok) (s : Span)
    (ht : l'.frags[i]? = some t) (hs : t.span = some s) :
    Addresses l'.layout s (wholeText l'.frags i) := by
  obtain ⟨hl, h1, _⟩ := C15_positions_partial st st' l l' hst hp h i t ht
  have hc : codeLines l'.layout = l'.layout := by
    unfold codeLines
    rw [List.filter_eq_self]
    intro f hf
    rw [hl] at hf
    simp [hnt f hf]
  have := (h1 s hs).1
  rw [hc] at this
  exact this

/-- **C15** (no text is lost) The texts of the tokens, in order, are the statement text of the
layout, blanks aside. -/
theorem C15_text (st st' : State) (l l' : LLine) (hst : LineState st)
    (hp : PlainLayout l.layout) (h : l.initFromLayout st = .ok (l', st')) :
    solid (l'.frags.flatMap (·.text)) = solid ((codeLines l.layout).flatMap (·.main_txt)) := by
  obtain ⟨ls, st2, ts, _, htiles, _, hlaid, htok⟩ := tokenize_plain st l hst hp
  obtain ⟨lab, he⟩ := initFromLayout_eq st l l' st' h
  rw [htok] at he
  simp only [Except.ok.injEq, Prod.mk.injEq] at he
  obtain ⟨rfl, rfl⟩ := he
  show solid (ts.flatMap (·.text)) = _
  rw [laid_text hlaid, tiles_solid htiles, solid_joined, flatMap_pieceOf]

/-- The lines of a free-format text, for witnesses. -/
def freeLines (raw : List String) : Res (Option (List FileLine)) :=
  analyzeAllFree 1 NUL false false (raw.map String.toList)

/-- A token with what its position addresses in the layout. -/
structure Shown where
  text : Str
  place : Option (Int × Int × Str)
  deriving DecidableEq, Repr

/-- The tokens of a free-format logical line with what their position addresses in the layout: text,
line, column and the text found there. -/
def addressed (raw : List String) : Res (Option (List Shown)) := do
  match ← freeLines raw with
  | none => .ok none
  | some fs =>
    let r ← LLine.ofLines {} fs
    .ok (some (r.1.frags.map (fun t => ⟨t.text, t.span.map (fun s => (s.bl, s.bc,
      (((r.1.layout[s.bl.toNat]?).map (·.main_txt)).getD []).drop s.bc.toNat))⟩)))

/-- **C15** A comment between continued lines shifts the line numbers: the position of the last token
addresses the comment line. -/
theorem C15_violation_comment : addressed ["x = &", "! note", "  1"] =
    .ok (some [⟨"x".toList, some (0, 0, "x =".toList)⟩, ⟨"=".toList, some (0, 2, "=".toList)⟩,
      ⟨"1".toList, some (1, 0, [])⟩]) := by decide +kernel

/-- **C15** The halves of a fused keyword: the first has no position, that of the second addresses
the first. -/
theorem C15_violation_fused : addressed ["enddo"] =
    .ok (some [⟨"end".toList, none⟩, ⟨"do".toList, some (0, 0, "enddo".toList)⟩]) := by
  decide +kernel

/-- **C15** A form feed is a token of its own but is skipped as a blank when the position is
computed. -/
theorem C15_violation_formfeed : addressed ["a\x0cb"] =
    .ok (some [⟨"a".toList, some (0, 0, "a\x0cb".toList)⟩, ⟨"\x0c".toList, some (0, 2, "b".toList)⟩,
      ⟨"b".toList, some (0, 2, "b".toList)⟩]) := by decide +kernel

/-- **C15** A first line with nothing but a continuation mark makes an assertion fail. -/
theorem C15_violation_empty_first : addressed ["&", "  x = 1"] = .error .assertion := by
  decide +kernel

example : ∃ fs, freeLines ["call f(a, &", "  'b c')"] = .ok (some fs) ∧
    (∀ f ∈ fs, f.isTrivial = false) ∧ fs.map (·.main_txt) = ["call f(a,".toList, "'b c')".toList] :=
  ⟨_, rfl, by decide, by decide⟩
example : addressed ["call f(a, &", "  'b c')"] =
    .ok (some [⟨"call".toList, some (0, 0, "call f(a,".toList)⟩,
      ⟨"f".toList, some (0, 5, "f(a,".toList)⟩, ⟨"(".toList, some (0, 6, "(a,".toList)⟩,
      ⟨"a".toList, some (0, 7, "a,".toList)⟩, ⟨",".toList, some (0, 8, ",".toList)⟩,
      ⟨"'b c'".toList, some (1, 0, "'b c')".toList)⟩, ⟨")".toList, some (1, 5, ")".toList)⟩]) := by
  decide +kernel

end FLPR
