import Verif.LogicalLine.TokLemmas
/-!
# The loop of `tokenize`
-/

namespace FLPR
open Spec Flex Smash

/-- The file position recorded for a token agrees with its position in the layout. -/
def Spec.FilePos (code : List FileLine) (s : Span) (line pos : Int) : Prop :=
  ∃ (bl : Nat) (f : FileLine), s.bl = bl ∧ code[bl]? = some f ∧ line = f.linenum ∧
    pos = f.mainFirstCol + s.bc

/-- The number of blanks that follow offset `p` in the text. -/
def Spec.gapAt (A : Str) (p : Nat) : Int := ((A.drop p).takeWhile isSpace).length

/-- How the tokens of a line arise from the lexemes: one token each, or two for a fused keyword, of
which only the second has a position, namely that of the whole word. -/
inductive Laid (code : List FileLine) (A : Str) : Int → List Lexeme → List Tok → Prop where
  | nil (pre : Int) : Laid code A pre [] []
  | one {pre l ls t ts s} : t.token = l.tag → t.text = l.text → t.span = some s →
      Addresses code s l.text ∧ Spot code s (l.stop - l.text.length) l.stop → FilePos code s t.line t.pos → t.pre = some pre →
      t.post = some (gapAt A l.stop) → (t.token = Tag.TK_NAME → ∀ p ∈ fusedPairs,
        t.text.map lowChar ≠ p.1.toList ++ p.2.toList) →
      Laid code A (gapAt A l.stop) ls ts → Laid code A pre (l :: ls) (t :: ts)
  | two {pre l ls t u ts s p} : l.tag = Tag.TK_NAME → p ∈ fusedPairs → t.text ++ u.text = l.text →
      t.text.map lowChar = p.1.toList → u.text.map lowChar = p.2.toList →
      IsKeyword p.1 t.token → IsKeyword p.2 u.token → t.span = none → t.pre = none →
      t.post = some 0 → u.span = some s →
      Addresses code s l.text ∧ Spot code s (l.stop - l.text.length) l.stop →
      FilePos code s t.line t.pos → u.line = t.line → u.pos = t.pos + (t.text.length : Int) →
      u.pre = some pre → u.post = some (gapAt A l.stop) →
      Laid code A (gapAt A l.stop) ls ts → Laid code A pre (l :: ls) (t :: u :: ts)

/-- A token as the constructor makes it. -/
def newTok (tag line pos : Int) (text : Str) : Tok := ⟨tag, line, pos, text, [], none, none, none⟩

/-- Setting the members at the end of the loop body. -/
def place (s : Span) (pre post : Int) (t : Tok) : Tok :=
  { t with span := some s, pre := some pre, post := some post }

theorem modifyLast_append (f : Tok → Tok) (acc : List Tok) (t : Tok) :
    modifyLast f (acc ++ [t]) = .ok (acc ++ [f t]) := by
  induction acc with
  | nil => rfl
  | cons a acc ih =>
    cases acc with
    | nil => simp [modifyLast]
    | cons b acc =>
      simp only [List.cons_append] at ih ⊢
      simp only [modifyLast, ih, Res.ok_bind]

theorem unsmash_cases (acc : List Tok) (t : Tok) (hn : t.token = Tag.TK_NAME) (hl : t.lower = []) :
    (unsmash (acc ++ [t]) = .ok (acc ++ [{ t with lower := t.text.map lowChar }]) ∧
      ∀ p ∈ fusedPairs, t.text.map lowChar ≠ p.1.toList ++ p.2.toList) ∨
    (∃ p ∈ fusedPairs, ∃ a b, unsmash (acc ++ [t]) = .ok (acc ++ [a, b]) ∧ a.text ++ b.text = t.text ∧
      a.text.map lowChar = p.1.toList ∧ b.text.map lowChar = p.2.toList ∧
      IsKeyword p.1 a.token ∧ IsKeyword p.2 b.token ∧
      a.line = t.line ∧ b.line = t.line ∧ a.pos = t.pos ∧ b.pos = t.pos + a.text.length ∧
      a.post = some 0 ∧ a.pre = t.pre ∧ a.span = t.span) := by
  by_cases h : ∃ p ∈ fusedPairs, t.text.map lowChar = p.1.toList ++ p.2.toList
  · obtain ⟨p, hp, ht⟩ := h
    obtain ⟨a, b, h1, h2, h3, h4, h5, h6, _, _, h7, h8, h9, h10, h11, _, h12, _, h13, _⟩ :=
      C23_unsmash_split acc t p hp hn (Or.inl hl) ht
    exact Or.inr ⟨p, hp, a, b, h1, h2, h3, h4, h5, h6, h7, h8, h9, h10, h11, h12, h13⟩
  · left
    have hno : ∀ p ∈ fusedPairs, t.text.map lowChar ≠ p.1.toList ++ p.2.toList :=
      fun p hp e => h ⟨p, hp, e⟩
    refine ⟨?_, hno⟩
    have hlow : t.lowerText = (t.text.map lowChar, { t with lower := t.text.map lowChar }) := by
      unfold Tok.lowerText; rw [if_pos hl]
    rcases C23_lookup (t.text.map lowChar) with ⟨p, hp, e, _⟩ | ⟨_, hw⟩
    · exact absurd e (hno p hp)
    · unfold unsmash
      simp only [List.getLast?_append, List.getLast?_singleton, Option.some_or, hn, ne_eq,
        not_true_eq_false, if_false, hlow, hw, Res.ok_bind]
      simp

theorem takeWhile_gap (s : Str) : s.takeWhile isSpace = [] ∨ ∃ c t, s = c :: t ∧ isSpace c = true := by
  cases s with
  | nil => simp
  | cons c t =>
    by_cases h : isSpace c = true
    · exact Or.inr ⟨c, t, rfl, h⟩
    · left; simp [h]

theorem Blank_isSpace (c : Char) (h : Blank c) : isSpace c = true := by
  rcases h with rfl | rfl | rfl | rfl <;> decide

theorem lineTokensGo_laid (code : List FileLine) (A : Str)
    (hA : A = joined true (code.map pieceOf)) (hasc : AsciiStr A)
    (hvf : ∀ c ∈ A, isSpace c = true → Blank c) {p : Nat} {s : Str} {ls : List Lexeme}
    (ht : Tiles p s ls) : ∀ (start : Nat) (pre : Int) (acc : List Tok), A.drop p = s →
      p ≤ A.length →
      start = p + (s.takeWhile isSpace).length →
      ∃ ts, lineTokensGo (accumAll (code.map pieceOf)) ls start pre acc = .ok (acc ++ ts) ∧
        Laid code A pre ls ts := by
  induction ht with
  | nil p =>
    intro start pre acc _ _ _
    exact ⟨[], by simp [lineTokensGo], .nil _⟩
  | @blank p c s ls hc _ ih =>
    intro start pre acc hd hle hstart
    have hlen : p + 1 ≤ A.length := by
      have := congrArg List.length hd
      rw [List.length_drop, List.length_cons] at this
      omega
    apply ih start pre acc ?_ hlen ?_
    · rw [← List.drop_drop, hd]; rfl
    · rw [hstart, List.takeWhile_cons, if_pos (Blank_isSpace c hc), List.length_cons]
      omega
  | @tok p t s ls tag hne hh hl _ ih =>
    intro start pre acc hd hle hstart
    have htpos : 0 < t.length := List.length_pos_iff.mpr hne
    have hlen : p + t.length + s.length = A.length := by
      have := congrArg List.length hd
      rw [List.length_drop, List.length_append] at this
      omega
    have hts : (A.drop p).take t.length = t := by rw [hd]; simp
    -- the token starts with no blank
    have hstart' : start = p := by
      obtain ⟨c, t', rfl⟩ : ∃ c t', t = c :: t' := by
        cases t with
        | nil => exact absurd rfl hne
        | cons c t' => exact ⟨c, t', rfl⟩
      have hcA : c ∈ A := by
        have : c ∈ A.drop p := by rw [hd]; simp
        exact List.mem_of_mem_drop this
      have : isSpace c = false := by
        by_contra h
        exact hh c (by simp) (hvf c hcA (by simpa using h))
      rw [hstart, List.cons_append, List.takeWhile_cons, if_neg (by simp [this])]
      simp
    subst hstart'
    have nb : ∀ c, ¬ Blank c → c ≠ ' ' := by
      rintro c h rfl; exact h (Or.inl rfl)
    obtain ⟨bl, bc, el, ec, fb, li, ci, hfb, hlc1, hlc2, haddr, hspot⟩ := addresses_of_slice code start
      t.length htpos (by rw [← hA]; omega)
      (by rw [← hA, hts]; exact fun c hc => nb c (hh c hc))
      (by rw [← hA, hts]; exact fun c hc => nb c (hl c hc))
    rw [← hA, hts] at haddr
    replace haddr : Addresses code ⟨bl, bc, el, ec + 1⟩ t ∧ Spot code ⟨bl, bc, el, ec + 1⟩
        (start + t.length - t.length) (start + t.length) := ⟨haddr, by simpa using hspot⟩
    have hdrop : A.drop (start + t.length) = s := by
      rw [← List.drop_drop, hd]; simp
    have hsp : ∃ r, scanSpaces (start + t.length) (A.drop (start + t.length)) = .ok r ∧
        r = start + t.length + (s.takeWhile isSpace).length := by
      obtain ⟨r, hr⟩ := scanSpaces_ascii (start + t.length) (A.drop (start + t.length))
        (fun c hc => hasc c (List.mem_of_mem_drop hc))
      refine ⟨r, hr, ?_⟩
      have := scanSpaces_ok _ _ _ hr
      rw [hdrop] at this
      exact this
    obtain ⟨r, hr, hr'⟩ := hsp
    have hacc : (accumAll (code.map pieceOf)).accum = A := by rw [hA]; exact C14_accum _
    have hgap : ((r : Nat) : Int) - ((start + t.length : Nat) : Int) = gapAt A (start + t.length) := by
      unfold gapAt; rw [hdrop]; omega
    have hpos : FilePos code ⟨bl, bc, el, ec + 1⟩ fb.linenum (fb.mainFirstCol + bc) :=
      ⟨bl, fb, rfl, hfb, rfl, rfl⟩
    have step : ∀ acc2, (if tag = Tag.TK_NAME then unsmash (acc ++ [newTok tag fb.linenum
          ((fb.mainFirstCol : Int) + bc) t]) else
          .ok (acc ++ [newTok tag fb.linenum ((fb.mainFirstCol : Int) + bc) t])) = .ok acc2 →
        lineTokensGo (accumAll (code.map pieceOf)) (⟨tag, t, start + t.length⟩ :: ls) start pre acc =
          (do
            let acc3 ← modifyLast (place ⟨bl, bc, el, ec + 1⟩ pre (gapAt A (start + t.length))) acc2
            lineTokensGo (accumAll (code.map pieceOf)) ls r (gapAt A (start + t.length)) acc3) := by
      intro acc2 h2
      simp only [newTok] at h2
      simp only [lineTokensGo, hlc1, Res.ok_bind, h2, hlc2, hacc, hr, hgap]
      rfl
    have hnext : r = start + t.length + (s.takeWhile isSpace).length := hr'
    by_cases htag : tag = Tag.TK_NAME
    · rcases unsmash_cases acc (newTok tag fb.linenum ((fb.mainFirstCol : Int) + bc) t) htag rfl with
        ⟨hu, hno⟩ | ⟨q, hq, a, b, hu, h1, h2, h3, h4, h5, h6, h7, h8, h9, h10, h11, h12⟩
      · rw [step _ (by rw [if_pos htag]; exact hu), modifyLast_append, Res.ok_bind]
        obtain ⟨ts, hts, hlaid⟩ := ih r (gapAt A (start + t.length))
          (acc ++ [place ⟨bl, bc, el, ec + 1⟩ pre (gapAt A (start + t.length))
            { newTok tag fb.linenum ((fb.mainFirstCol : Int) + bc) t with
              lower := t.map lowChar }]) hdrop (by omega) hnext
        refine ⟨_ :: ts, hts.trans (by rw [List.append_assoc]; rfl), ?_⟩
        exact .one rfl rfl rfl haddr hpos rfl rfl (fun _ => hno) hlaid
      · rw [step _ (by rw [if_pos htag]; exact hu)]
        rw [show acc ++ [a, b] = (acc ++ [a]) ++ [b] by simp, modifyLast_append, Res.ok_bind]
        obtain ⟨ts, hts, hlaid⟩ := ih r (gapAt A (start + t.length))
          (acc ++ [a] ++ [place ⟨bl, bc, el, ec + 1⟩ pre (gapAt A (start + t.length)) b])
          hdrop (by omega) hnext
        refine ⟨a :: place ⟨bl, bc, el, ec + 1⟩ pre (gapAt A (start + t.length)) b :: ts,
          by rw [hts]; simp, ?_⟩
        refine .two htag hq h1 h2 h3 h4 h5 h12 h11 h10 rfl haddr ?_ (h7.trans h6.symm) ?_ rfl rfl hlaid
        · rw [h6, h8]; exact hpos
        · show b.pos = _
          rw [h9, h8]
    · rw [step _ (by rw [if_neg htag]), modifyLast_append, Res.ok_bind]
      obtain ⟨ts, hts, hlaid⟩ := ih r (gapAt A (start + t.length))
        (acc ++ [place ⟨bl, bc, el, ec + 1⟩ pre (gapAt A (start + t.length))
          (newTok tag fb.linenum ((fb.mainFirstCol : Int) + bc) t)]) hdrop (by omega) hnext
      refine ⟨_ :: ts, by rw [hts, List.append_assoc]; rfl, ?_⟩
      exact .one rfl rfl rfl haddr hpos rfl rfl (fun h => absurd h htag) hlaid

end FLPR
