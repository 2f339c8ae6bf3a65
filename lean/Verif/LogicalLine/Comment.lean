import Verif.FileLine.Reread
import Verif.LogicalLine.TextEditRead
/-!
# Appending comments (C62)
-/

namespace FLPR
open Spec Flex

namespace Spec

/-- Nothing but the right end of the line differs. -/
def SameUpToRight (f g : FileLine) : Prop :=
  g.linenum = f.linenum ∧ g.left_txt = f.left_txt ∧ g.left_space = f.left_space ∧ g.main_txt = f.main_txt ∧
  g.open_delim = f.open_delim ∧ g.bits = f.bits

/-- A line with `text` as an additional comment: a comment of its own, a comment behind the continuation mark, or
the end of the comment that is there already. -/
def CommentAdded (f g : FileLine) (text : Str) : Prop :=
  SameUpToRight f g ∧
  (f.right_txt = [] → g.right_txt = "! ".toList ++ text ∧ g.right_space ≠ [] ∧ ∀ c ∈ g.right_space, c = ' ') ∧
  (f.right_txt ≠ [] → g.right_space = f.right_space ∧
    ('!' ∉ f.right_txt → g.right_txt = f.right_txt ++ " ! ".toList ++ text) ∧
    ('!' ∈ f.right_txt → g.right_txt = f.right_txt ++ " : ".toList ++ text))

end Spec

/-- **C62** `append_comment` adds the comment to the first line and changes nothing else: no other line, no token, no
statement, not the label. -/
theorem C62_effect (l : LLine) (f : FileLine) (fs : List FileLine) (text : Str) (hl : l.layout = f :: fs)
    (ht : text ≠ []) :
    ∃ g, l.appendComment text = .ok { l with layout := g :: fs } ∧ CommentAdded f g text := by
  unfold LLine.appendComment
  rw [if_neg ht, hl]
  dsimp only
  by_cases h1 : f.right_txt = []
  · rw [if_pos h1]
    refine ⟨_, rfl, ⟨rfl, rfl, rfl, rfl, rfl, rfl⟩, fun _ => ⟨rfl, ?_, ?_⟩, fun h => absurd h1 h⟩
    · dsimp only
      split
      · unfold blanks
        intro h
        have := congrArg List.length h
        simp at this
        omega
      · decide
    · intro c hc
      dsimp only at hc
      split at hc <;> exact List.eq_of_mem_replicate hc
  · rw [if_neg h1]
    by_cases h2 : f.right_txt.contains '!' = true
    · rw [if_pos h2]
      have h3 : '!' ∈ f.right_txt := by simpa using h2
      exact ⟨_, rfl, ⟨rfl, rfl, rfl, rfl, rfl, rfl⟩, fun h => absurd h h1, fun _ => ⟨rfl, fun h => absurd h3 h, fun _ => rfl⟩⟩
    · rw [if_neg h2]
      have h3 : '!' ∉ f.right_txt := by simpa using h2
      exact ⟨_, rfl, ⟨rfl, rfl, rfl, rfl, rfl, rfl⟩, fun h => absurd h h1, fun _ => ⟨rfl, fun _ => rfl, fun h => absurd h h3⟩⟩

/-- **C62** An empty text changes nothing. -/
theorem C62_empty (l : LLine) : l.appendComment [] = .ok l := rfl

/-- **C62** On a logical line without lines, any other text is undefined behaviour. -/
theorem C62_no_lines (l : LLine) (text : Str) (hl : l.layout = []) (ht : text ≠ []) :
    l.appendComment text = .error .ub := by
  unfold LLine.appendComment
  rw [if_neg ht, hl]

/-- **C62** A comment of its own ends in column 71 if there is room, and is four blanks away from the text
otherwise. -/
theorem C62_column (l l' : LLine) (f : FileLine) (fs : List FileLine) (text : Str) (hl : l.layout = f :: fs)
    (ht : text ≠ []) (hr : f.right_txt = []) (hfree : f.bits.fixed_format = false) (hm : f.main_txt ≠ [])
    (h : l.appendComment text = .ok l') :
    ∃ g, l'.layout = g :: fs ∧
      ((f.left_txt ++ f.left_space ++ f.main_txt).length + text.length + 2 < 71 → g.print.length = 71) ∧
      (71 ≤ (f.left_txt ++ f.left_space ++ f.main_txt).length + text.length + 2 → g.right_space = blanks 4) := by
  unfold LLine.appendComment at h
  rw [if_neg ht, hl] at h
  dsimp only at h
  rw [if_pos hr] at h
  have h := (Except.ok.inj h).symm
  subst h
  refine ⟨_, rfl, fun hlen => ?_, fun hlen => ?_⟩
  · unfold FileLine.print FileLine.mainFirstCol blanks
    simp only [hfree, if_neg hm, Bool.and_false, Bool.false_eq_true, if_false]
    simp only [List.length_append] at hlen
    rw [if_pos (by omega)]
    simp only [List.length_append, List.length_replicate]
    have : ("! ".toList).length = 2 := rfl
    omega
  · unfold FileLine.mainFirstCol
    simp only [hfree, if_neg hm, Bool.false_eq_true, if_false]
    simp only [List.length_append] at hlen
    rw [if_neg (by omega)]

theorem commentAdded_eq {f g : FileLine} {text : Str} (h : CommentAdded f g text) :
    g = { f with right_space := g.right_space, right_txt := g.right_txt } := by
  obtain ⟨⟨h1, h2, h3, h4, h5, h6⟩, _⟩ := h
  cases g
  simp only at h1 h2 h3 h4 h5 h6
  simp only [← h1, ← h2, ← h3, ← h4, ← h5, ← h6]

/-- **C62** A comment is a comment: a free-format line outside of a character context is printed with the comment, and
reading it again gives exactly the line with the comment – the same label, statement text and continuation. -/
theorem C62_reread_partial (ln : Int) (raw : Str) (pd : Char) (pc inLit : Bool) (f g : FileLine) (lit : Bool)
    (text : Str) (hd : validDelim pd = true) (h : analyzeFree ln raw pd pc inLit = .ok (f, lit))
    (hf : f.isFortran = true) (hod : f.open_delim = NUL)
    (hm : f.main_txt ≠ [] ∨ f.bits.label = false ∨ f.right_txt ≠ []) (ha : AsciiStr raw) (hat : AsciiStr text)
    (hg : CommentAdded f g text) : analyzeFree ln g.print pd pc inLit = .ok (g, lit) := by
  have hk : lineCat inLit raw = .fortran := (C02_free_category _ _ _ _ _ _ _ hd h .fortran).mp hf
  have hprint := C01_free_roundtrip _ _ _ _ _ _ _ h
  obtain ⟨c0, rest, hb, hbang, hbody⟩ := fortran_body h hk
  obtain ⟨h1, h2, h3, h4, h5, h6, h7, h8, h9, h10, h11, h12, h13, h14, h15, h16, h17, h18, h19⟩ :=
    analyzeFreeBody_spec hb hd hbody
  have hin : ∀ c ∈ f.right_txt, c ∈ raw := by
    intro c hc
    rw [← hprint]
    unfold FileLine.print
    split <;> exact List.mem_append_right _ hc
  have e := commentAdded_eq hg
  obtain ⟨_, hn, hs⟩ := hg
  by_cases hr : f.right_txt = []
  · obtain ⟨e1, e2, e3⟩ := hn hr
    refine reread_free ln raw pd pc inLit f lit hd h hf hod g.right_space g.right_txt
      (fun c hc => Or.inl (e3 c hc)) (Or.inr ⟨'!', ' ' :: text, e1, Or.inl rfl⟩) ?_ ha ?_ g ?_
    · rcases hm with h | h | h
      · exact Or.inl h
      · exact Or.inr (Or.inl h)
      · exact absurd hr h
    · intro c hc
      rw [e1] at hc
      rcases List.mem_append.mp hc with hc | hc
      · exact (show ∀ c ∈ "! ".toList, isAscii c = true by decide) c hc
      · exact hat c hc
    · have hc : f.bits.continued = false := by
        cases hx : f.bits.continued with
        | false => rfl
        | true => rw [hr] at h16; exact absurd (h16.mp hx) (by simp)
      rw [e1]
      conv_lhs => rw [e, e1]
      congr 1
      rw [show decide (("! ".toList ++ text).head? = some '&') = false from rfl, ← hc]
  · obtain ⟨e1, e2, e3⟩ := hs hr
    obtain ⟨c, r, hcr⟩ : ∃ c r, f.right_txt = c :: r := by
      cases hx : f.right_txt with
      | nil => exact absurd hx hr
      | cons c r => exact ⟨c, r, rfl⟩
    have hch : c = '!' ∨ c = '&' := by
      obtain ⟨hbr, _⟩ := h13 hr
      have hx : (stmtText pc raw)[(f.main_txt ++ f.right_space).length]? = some c := by
        rw [← h1, hcr, List.getElem?_append_right (by simp)]
        simp
      rcases hbr with ⟨_, e | e⟩ | ⟨_, e, _⟩
      · rw [hx] at e; exact Or.inl (Option.some.inj e)
      · rw [hx] at e; exact Or.inr (Option.some.inj e)
      · rw [hx] at e; exact Or.inr (Option.some.inj e)
    obtain ⟨sep, hsep, hsa⟩ : ∃ sep : Str, g.right_txt = c :: (r ++ sep ++ text) ∧ AsciiStr sep := by
      by_cases hx : '!' ∈ f.right_txt
      · exact ⟨" : ".toList, by rw [e3 hx, hcr]; simp, by unfold AsciiStr; decide⟩
      · exact ⟨" ! ".toList, by rw [e2 hx, hcr]; simp, by unfold AsciiStr; decide⟩
    refine reread_free ln raw pd pc inLit f lit hd h hf hod g.right_space g.right_txt
      (by rw [e1]; exact h8) (Or.inr ⟨c, _, hsep, hch⟩) ?_ ha ?_ g ?_
    · by_cases hmt : f.main_txt = []
      · by_cases hlb : f.bits.label = true
        · right; right
          rw [e1]
          -- the blanks behind the label are in front of the statement
          cases hrs : f.right_space with
          | nil => rfl
          | cons x xs =>
            exfalso
            have hlab := h2.mp hlb
            rw [hmt, hrs, List.nil_append] at h1
            unfold stmtText at h1
            rw [hb] at h1
            dsimp only at h1
            rw [if_pos hlab] at h1
            have hhd := List.head?_dropWhile_not isSpace ((c0 :: rest).drop (labelLen (c0 :: rest)))
            rw [← h1] at hhd
            have hx : isSpace x = true := isSpace_of_blankTab (h8 x (by rw [hrs]; simp))
            simp [hx] at hhd
        · exact Or.inr (Or.inl (by simpa using hlb))
      · exact Or.inl hmt
    · intro x hx
      rw [hsep] at hx
      rcases List.mem_cons.mp hx with rfl | hx
      · exact ha x (hin x (by rw [hcr]; simp))
      · rcases List.mem_append.mp hx with hx | hx
        · rcases List.mem_append.mp hx with hx | hx
          · exact ha x (hin x (by rw [hcr]; simp [hx]))
          · exact hsa x hx
        · exact hat x hx
    · conv_lhs => rw [e]
      congr 1
      have : f.bits.continued = decide (g.right_txt.head? = some '&') := by
        rw [Bool.eq_iff_iff, h16, hcr, hsep]
        simp
      rw [← this]

theorem tokenize_layout (st : State) (l : LLine) (la : LineAccum) (lay : List FileLine) :
    LLine.tokenize st { l with layout := lay } la =
      (LLine.tokenize st l la).map (fun r => ({ r.1 with layout := lay }, r.2)) := by
  unfold LLine.tokenize
  cases Flex.scan st la.accum with
  | error e => rfl
  | ok r =>
    simp only [Res.ok_bind]
    cases lineTokensGo la r.1 0 0 [] with
    | error e => rfl
    | ok fr => rfl

theorem initFromLayout_layout {st st' : State} {l l' : LLine} (h : l.initFromLayout st = .ok (l', st')) :
    l'.layout = l.layout := by
  obtain ⟨lab, h⟩ := initFromLayout_eq st l l' st' h
  unfold LLine.tokenize at h
  rbind h with r hr
  rbind h with fr hfr
  simp only [Except.ok.injEq, Prod.mk.injEq] at h
  rw [← h.1]
  rfl

/-- **C62** On a line that has a comment or is continued, reading the logical line again after `append_comment` gives
the same tokens and statements. -/
theorem C62_tokens (st : State) (l l' : LLine) (f : FileLine) (fs : List FileLine) (text : Str)
    (hl : l.layout = f :: fs) (hr : f.right_txt ≠ []) (h : l.appendComment text = .ok l') :
    LLine.initFromLayout st l' =
      (LLine.initFromLayout st l).map (fun r => ({ r.1 with layout := l'.layout }, r.2)) := by
  by_cases ht : text = []
  · subst ht
    rw [C62_empty] at h
    have := Except.ok.inj h
    subst this
    cases hx : LLine.initFromLayout st l with
    | error e => rfl
    | ok r =>
      obtain ⟨r, st'⟩ := r
      have := (initFromLayout_layout hx)
      simp only [Except.map, ← this]
  · obtain ⟨g, hg, ⟨h1, h2, h3, h4, h5, h6⟩, _, hc⟩ := C62_effect l f fs text hl ht
    have h7 := (hc hr).1
    rw [hg] at h
    have := Except.ok.inj h
    subst this
    have hpiece : pieceOf g = pieceOf f := by
      unfold pieceOf FileLine.mainFirstCol
      rw [h1, h2, h3, h4, h6, h7]
    have htriv : g.isTrivial = f.isTrivial := by unfold FileLine.isTrivial; rw [h6]
    have hmap : ((g :: fs).filter (fun f => !f.isTrivial)).map pieceOf =
        ((f :: fs).filter (fun f => !f.isTrivial)).map pieceOf := by
      simp only [List.filter_cons, htriv]
      split <;> simp [hpiece]
    unfold LLine.initFromLayout
    rw [hl]
    dsimp only
    rw [hmap, h6, h2]
    split
    · split
      · rfl
      · cases stoi f.left_txt with
        | error e => rfl
        | ok v =>
          simp only [Res.ok_bind]
          exact tokenize_layout st { l with label := v, layout := f :: fs } _ _
    · exact tokenize_layout st { l with label := 0, layout := f :: fs } _ _

/-! ## Examples and violations -/

/-- A free-format line is read and gets a comment; the printed line, and whether it is read as that line. -/
def commented (raw text : String) (pd : Char := NUL) (pc : Bool := false) : Res (String × Res Bool) := do
  let r ← analyzeFree 1 raw.toList pd pc false
  let l ← ({ layout := [r.1] } : LLine).appendComment text.toList
  match l.layout with
  | [g] => .ok (String.ofList g.print, (do
      let r' ← analyzeFree 1 g.print pd pc false
      .ok (decide (r'.1 = g)) : Res Bool))
  | _ => .error .ub

example : commented "  10 x = 'a!' // &  ! one" "two" = .ok ("  10 x = 'a!' // &  ! one : two", .ok true) := by
  decide +kernel

example : commented "  x = 'a!' // &" "two" = .ok ("  x = 'a!' // & ! two", .ok true) := by decide +kernel

example : commented "x = 1" "a note" =
    .ok ("x = 1                                                          ! a note", .ok true) := by decide +kernel

/-- The hypotheses of `C62_reread_partial` are met by a labelled, continued line. -/
example : ∃ f, analyzeFree 1 "  10 x = 'a!' // &".toList NUL false false = .ok (f, false) ∧ f.isFortran = true ∧
    f.open_delim = NUL ∧ f.main_txt ≠ [] ∧ f.right_txt ≠ [] :=
  ⟨_, rfl, by decide, by decide, by decide, by decide⟩

/-- **C62** A character string that is continued on the next line takes the comment for its own text: the line cannot
be read any more. -/
theorem C62_violation_string : commented "x = 'abc&" "hello" = .ok ("x = 'abc& ! hello", .error .exc) := by
  decide +kernel

/-- **C62** On a line with nothing but a label, the blanks in front of the comment are read as those behind the
label. -/
theorem C62_violation_label : commented "10" "a" =
    .ok ("10                                                                     ! a", .ok false) := by decide +kernel

/-- **C62** A comment is also added to the lines of the C preprocessor, which has no such comments. -/
theorem C62_violation_preprocessor :
    ∃ f, analyzeFree 1 "#define N 1".toList NUL false false = .ok (f, false) ∧ f.bits.preprocessor = true ∧
      commented "#define N 1" "size" =
        .ok ("#define N 1                                                                  ! size", .ok false) :=
  ⟨_, rfl, by decide, by decide +kernel⟩

/-- The tokens of two fixed-format lines, before and after the first one gets a comment and the line is read again. -/
def fixedComment (a b text : String) : Res (List String × List String) := do
  let f ← analyzeFixed 1 a.toList NUL 72
  let g ← analyzeFixed 2 b.toList f.open_delim 72
  let r ← LLine.ofLines {} [f, g]
  let l ← r.1.appendComment text.toList
  let r' ← LLine.initFromLayout {} l
  .ok (r.1.frags.map (fun t => String.ofList t.text), r'.1.frags.map (fun t => String.ofList t.text))

/-- **C62** In fixed format, a name that goes on on the next line is cut in two: the blanks in front of the comment
separate the parts when the line is read again. -/
theorem C62_violation_fixed : fixedComment "      x = ab" "     1cd" "note" =
    .ok (["x", "=", "abcd"], ["x", "=", "ab", "cd"]) := by decide +kernel

end FLPR
