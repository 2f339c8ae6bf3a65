import Verif.LogicalLine.TextEditMain
import Verif.LogicalLine.SplitEx
/-!
# What a line is after its text has been edited (C61): tokens, examples, and where it goes wrong
-/

namespace FLPR
open Spec Flex

namespace Spec

/-- A text that may be inserted anywhere: ASCII without NUL, vertical tab or form feed, not starting with a blank. -/
def PlainText (new : Str) : Prop :=
  (∀ c ∈ new, isAscii c = true ∧ c ≠ NUL ∧ c ≠ '\x0b' ∧ c ≠ '\x0c') ∧ ∃ c t, new = c :: t ∧ isSpace c = false

/-- The label field of the first line, if there is one, is a number. -/
def LabelOk (lay : List FileLine) : Prop :=
  ∃ f ∈ lay.head?, f.bits.label = true → ∃ v, stoi f.left_txt = .ok v

end Spec
open Spec

theorem codeLines_self {lay : List FileLine} (h : ∀ f ∈ lay, f.isTrivial = false) : codeLines lay = lay := by
  unfold codeLines
  rw [List.filter_eq_self]
  intro f hf
  simp [h f hf]

/-- **C61** What reading a line again means: the layout is kept, the text of the tokens is the text of the layout,
and, unless a keyword is fused, every token is at its place. -/
theorem C61_read (st st' : State) (l l' : LLine) (lay' : List FileLine) (hst : LineState st)
    (hp : PlainLayout lay') (hnt : ∀ f ∈ lay', f.isTrivial = false)
    (h : LLine.initFromLayout st { l with layout := lay' } = .ok (l', st')) :
    l'.layout = lay' ∧ solid (l'.frags.flatMap (·.text)) = solid (allText lay') ∧
    ((∀ t ∈ l'.frags, t.span ≠ none) →
      GoodPositions l'.layout l'.frags ∧ ∀ t ∈ l'.frags, RightEnd t) := by
  have hlay : l'.layout = lay' := by
    obtain ⟨ls, st2, ts, _, htile, _, hlaid, htok⟩ := tokenize_plain st { l with layout := lay' } hst hp
    obtain ⟨lab, he⟩ := initFromLayout_eq st _ l' st' h
    rw [htok] at he
    simp only [Except.ok.injEq, Prod.mk.injEq] at he
    obtain ⟨rfl, rfl⟩ := he
    rfl
  refine ⟨hlay, ?_, fun hnf => ?_⟩
  · rw [C15_text st st' _ l' hst hp h, codeLines_self hnt]
    rfl
  · have hf := C42_fresh st st' _ l' hst hp hnt h hnf
    refine ⟨hf.1, fun t ht => ⟨hf.2 t ht, fun s hs => ?_⟩⟩
    obtain ⟨i, hi⟩ := List.mem_iff_getElem?.mp ht
    have ha := C15_layout_partial st st' _ l' hst hp hnt h i t s hi hs
    obtain ⟨bl, bc, el, ec, fb, fe, rfl, _⟩ := ha
    exact Int.natCast_nonneg _

/-- A plain text put into a plain layout gives a plain layout. -/
theorem plain_inserted {lay lay' : List FileLine} {k c : Nat} {new : Str} (h : Inserted lay lay' k c new)
    (hp : PlainLayout lay) (hnt : ∀ f ∈ lay, f.isTrivial = false) (hn : PlainText new) (hl : LabelOk lay) :
    PlainLayout lay' ∧ (∀ f ∈ lay', f.isTrivial = false) ∧ LabelOk lay' := by
  obtain ⟨f, hf, hc, rfl⟩ := h
  have hk := (List.getElem?_eq_some_iff.mp hf).1
  have hfm := List.mem_of_getElem? hf
  have hnt' : ∀ g ∈ lay.set k { f with main_txt := f.main_txt.take c ++ new ++ f.main_txt.drop c },
      g.isTrivial = false := by
    intro g hg
    rcases List.mem_or_eq_of_mem_set hg with hg | rfl
    · exact hnt g hg
    · exact hnt f hfm
  unfold PlainLayout at hp ⊢
  rw [codeLines_self hnt] at hp
  rw [codeLines_self hnt']
  refine ⟨⟨?_, ?_⟩, hnt', ?_⟩
  · intro g hg x hx
    rcases List.mem_or_eq_of_mem_set hg with hg | rfl
    · exact hp.1 g hg x hx
    · rcases List.mem_append.mp hx with hx | hx
      · rcases List.mem_append.mp hx with hx | hx
        · exact hp.1 f hfm x (List.mem_of_mem_take hx)
        · exact hn.1 x hx
      · exact hp.1 f hfm x (List.mem_of_mem_drop hx)
  · intro g hg
    cases lay with
    | nil => simp at hk
    | cons a as =>
      cases k with
      | succ k =>
        rw [List.set_cons_succ, List.head?_cons] at hg
        exact hp.2 g (by simpa using hg)
      | zero =>
        simp at hf
        subst hf
        rw [List.set_cons_zero, List.head?_cons] at hg
        obtain rfl := Option.some.inj hg
        obtain ⟨x, t, h1, h2⟩ := hp.2 a (by simp)
        cases c with
        | zero =>
          obtain ⟨y, u, h3, h4⟩ := hn.2
          exact ⟨y, u ++ a.main_txt, by simp [h3], h4⟩
        | succ c =>
          exact ⟨x, t.take c ++ new ++ t.drop c, by simp [h1], h2⟩
  · obtain ⟨g, hg, hgl⟩ := hl
    cases lay with
    | nil => simp at hk
    | cons a as =>
      obtain rfl : a = g := by simpa using hg
      cases k with
      | succ k => exact ⟨a, by simp, hgl⟩
      | zero =>
        simp at hf
        subst hf
        exact ⟨{ a with main_txt := a.main_txt.take c ++ new ++ a.main_txt.drop c }, rfl, hgl⟩

theorem inserted_read (st : State) (l : LLine) (lay' : List FileLine) (k c : Nat) (new : Str)
    (hst : LineState st) (hp : PlainLayout l.layout) (hnt : ∀ f ∈ l.layout, f.isTrivial = false)
    (hl : LabelOk l.layout) (hn : PlainText new) (h : Inserted l.layout lay' k c new) :
    ∃ l' st', LLine.initFromLayout st { l with layout := lay' } = .ok (l', st') ∧ l'.layout = lay' ∧
      solid (l'.frags.flatMap (·.text)) = solid (allText lay') ∧
      ((∀ t ∈ l'.frags, t.span ≠ none) →
        GoodPositions l'.layout l'.frags ∧ ∀ t ∈ l'.frags, RightEnd t) := by
  obtain ⟨h1, h2, h3⟩ := plain_inserted h hp hnt hn hl
  obtain ⟨l', st', he, _⟩ := C15_outcome st { l with layout := lay' } hst h1 h3
  exact ⟨l', st', he, C61_read st st' l l' lay' hst h1 h2 he⟩

/-- **C61** Inserting plain text in front of a token never fails; the text of the tokens is then the old text with
the new text in front of that token, and – unless a keyword is fused – all tokens are at their places again. -/
theorem C61_insert_tokens (st : State) (l : LLine) (i : Nat) (t : Tok) (new : Str) (hst : LineState st)
    (hg : GoodPositions l.layout l.frags) (ht : l.frags[i]? = some t) (hp : PlainLayout l.layout)
    (hnt : ∀ f ∈ l.layout, f.isTrivial = false) (hl : LabelOk l.layout) (hn : PlainText new) :
    ∃ s l' st', t.span = some s ∧ l.insertBefore st i new = .ok (l', st') ∧
      solid (l'.frags.flatMap (·.text)) =
        solid (Spliced (allText l.layout) (startOff l.layout s) (startOff l.layout s) new) ∧
      ((∀ t ∈ l'.frags, t.span ≠ none) →
        GoodPositions l'.layout l'.frags ∧ ∀ t ∈ l'.frags, RightEnd t) := by
  obtain ⟨s, lay', hs, h1, h2, h3⟩ := C61_insert_before st l i t new hg ht
  obtain ⟨l', st', e1, e2, e3, e4⟩ := inserted_read st l lay' _ _ new hst hp hnt hl hn h2
  exact ⟨s, l', st', hs, h1.trans e1, by rw [e3, h3], e4⟩

/-- **C61** The same for text behind a token. -/
theorem C61_insert_after_tokens (st : State) (l : LLine) (i : Nat) (t : Tok) (new : Str) (hst : LineState st)
    (hg : GoodPositions l.layout l.frags) (ht : l.frags[i]? = some t) (he : RightEnd t)
    (hp : PlainLayout l.layout) (hnt : ∀ f ∈ l.layout, f.isTrivial = false) (hl : LabelOk l.layout)
    (hn : PlainText new) :
    ∃ s l' st', t.span = some s ∧ l.insertAfter st i new = .ok (l', st') ∧
      solid (l'.frags.flatMap (·.text)) =
        solid (Spliced (allText l.layout) (stopOff l.layout s t.text) (stopOff l.layout s t.text) new) ∧
      ((∀ t ∈ l'.frags, t.span ≠ none) →
        GoodPositions l'.layout l'.frags ∧ ∀ t ∈ l'.frags, RightEnd t) := by
  obtain ⟨s, lay', hs, h1, h2, h3⟩ := C61_insert_after st l i t new hg ht he
  obtain ⟨l', st', e1, e2, e3, e4⟩ := inserted_read st l lay' _ _ new hst hp hnt hl hn h2
  exact ⟨s, l', st', hs, h1.trans e1, by rw [e3, h3], e4⟩

/-! ## Examples and violations -/

/-- The edits of this file. -/
inductive TextEdit where
  | before (i : Nat) (s : String)
  | after (i : Nat) (s : String)
  | substr (i j : Nat) (s : String)
  | main (ss : List String)

def LLine.textEdit (l : LLine) : TextEdit → Res LLine
  | .before i s => do .ok (← l.insertBefore {} i s.toList).1
  | .after i s => do .ok (← l.insertAfter {} i s.toList).1
  | .substr i j s => do .ok (← l.replaceSubstr {} i j s.toList).1
  | .main ss => do .ok (← l.replaceMain {} (ss.map (·.toList))).1

/-- A free-format line is read, edited token by token, and then its text is edited: the lines and the tokens. -/
def afterText (raw : List String) (es : List Edit) (e : TextEdit) : Res (Option (List String × List String)) := do
  match ← freeLines raw with
  | none => .ok none
  | some fs =>
    let r ← LLine.ofLines {} fs
    let l ← r.1.edits es
    let l ← l.textEdit e
    .ok (some (l.layout.map (fun f => String.ofList f.print), l.frags.map (fun t => String.ofList t.text)))

/-- A line over two physical lines meets the hypotheses of the theorems. -/
theorem text_ready : ∃ fs, freeLines ["  call f(a, &    ! note", "     b)"] = .ok (some fs) ∧ PlainLayout fs ∧
    (∀ f ∈ fs, f.isTrivial = false) ∧ LabelOk fs ∧ Chained fs ∧ (∀ f ∈ fs, Marked f) ∧
    ∃ r, LLine.ofLines {} fs = .ok r ∧ (∀ t ∈ r.1.frags, t.span ≠ none) ∧ r.1.frags.length = 7 := by
  refine ⟨_, rfl, ?_, by decide, ⟨_, rfl, fun h => by cases h⟩, ?_, ?_, _, rfl, ?_, by decide +kernel⟩
  · constructor
    · decide +kernel
    · intro f hf
      simp only [codeLines] at hf
      obtain rfl : f = _ := (Option.some.inj hf).symm
      exact ⟨_, _, rfl, by decide⟩
  · exact ⟨by decide, by decide⟩
  · intro f hf hc
    rcases List.mem_cons.mp hf with rfl | hf
    · exact ⟨_, rfl⟩
    · rcases List.mem_cons.mp hf with rfl | hf
      · cases hc
      · cases hf
  · decide +kernel

example : PlainText "x + ".toList := ⟨by decide, 'x', " + ".toList, rfl, by decide⟩

example : afterText ["  call f(a, &    ! note", "     b)"] [] (.before 5 "x + ") =
    .ok (some (["  call f(a, &    ! note", "     x + b)"], ["call", "f", "(", "a", ",", "x", "+", "b", ")"])) := by
  decide +kernel

example : afterText ["  call f(a, &    ! note", "     b)"] [] (.substr 3 6 "c, d") =
    .ok (some (["  call f(c, d &    ! note", "     )"], ["call", "f", "(", "c", ",", "d", ")"])) := by
  decide +kernel

example : afterText ["  call f(a, &    ! note", "     b)"] [] (.main ["x = 1 +", "2 +", "3"]) =
    .ok (some (["  x = 1 + &    ! note", "     2 + &", "     3"], ["x", "=", "1", "+", "2", "+", "3"])) := by
  decide +kernel

/-- **C61** Replacing a token on a line that is continued takes the continuation mark away: printed, the statement is
two statements. -/
theorem C61_violation_continuation : afterText ["a = b + &", "c"] [] (.substr 2 3 "q") =
    .ok (some (["a = q +", "c"], ["a", "=", "q", "+", "c"])) := by decide +kernel

/-- **C61** A range over three lines whose middle line has a comment: the comment is blanked and the statement text of
that line stays and is printed. -/
theorem C61_violation_middle :
    afterText ["a = b + &", "c + & ! note", "d + f"] [] (.substr 2 7 "q") =
    .ok (some (["a = q &", "c +         ", " + f"], ["a", "=", "q", "+", "f"])) := by decide +kernel

/-- **C61** The comment of the last line of a range is lost if nothing else is left of that line. -/
theorem C61_violation_comment_lost : afterText ["a = b + &", "c ! note"] [] (.substr 2 5 "q") =
    .ok (some (["a = q", ""], ["a", "=", "q"])) := by decide +kernel

/-- **C61** The only token of a continuation line with a leading `&` cannot be replaced: an exception is thrown. -/
theorem C61_violation_throws : afterText ["a = &", "& x"] [] (.substr 2 3 "q") = .error .exc := by decide +kernel

/-- **C61** After a comment line, the comment is changed instead of the statement. -/
theorem C61_violation_comment : afterText ["a = &", "! note", "  x+y"] [] (.before 2 "q") =
    .ok (some (["a = &", "! noteq", "  x+y"], ["a", "=", "x", "+", "y"])) := by decide +kernel

/-- **C61** After a token has been replaced by a longer one, text inserted behind it ends up inside. -/
theorem C61_violation_stale : afterText ["x = 1"] [.replace 0 Tag.TK_NAME "long".toList] (.after 0 "(i)") =
    .ok (some (["l(i)ong = 1"], ["l", "(", "i", ")", "ong", "=", "1"])) := by decide +kernel

/-- **C61** Two lines more than before: the added line that is not the last one has no continuation mark. -/
theorem C61_violation_marks : afterText ["x = 1"] [] (.main ["y = 2 +", "3 +", "4"]) =
    .ok (some (["y = 2 + &", "3 + ", "4"], ["y", "=", "2", "+", "3", "+", "4"])) := by decide +kernel

/-- **C61** A fused keyword has no position: undefined. -/
theorem C61_violation_fused : afterText ["enddo name"] [] (.substr 0 3 "continue") = .error .ub := by
  decide +kernel

/-- **C61** A position in the second half of a fused keyword is that of the whole word: text meant to go between the
two words goes in front of them. -/
theorem C61_violation_fused_half : afterText ["enddo"] [] (.before 1 "x") =
    .ok (some (["xenddo"], ["xenddo"])) := by decide +kernel

end FLPR
