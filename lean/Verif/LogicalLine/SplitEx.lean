import Verif.LogicalLine.SplitMore
/-! # Splitting: examples, and where it goes wrong (C20) -/

namespace FLPR
open Spec

/-- A line as a reader sees it: the printed physical lines, and the tokens with the position they claim. -/
structure Seen where
  lines : List String
  toks : List (String × Option (Int × Int × Int × Int))
  deriving DecidableEq, Repr

def LLine.seen (l : LLine) : Seen :=
  ⟨l.layout.map (fun f => String.ofList f.print),
   l.frags.map (fun t => (String.ofList t.text, t.span.map (fun s => (s.bl, s.bc, s.el, s.ec))))⟩

/-- A line is read, edited, and split after its token `i`. -/
def afterSplit (raw : List String) (es : List Edit) (i : Nat) : Res (Option SplitResult) := do
  match ← freeLines raw with
  | none => .ok none
  | some fs =>
    let r ← LLine.ofLines {} fs
    let l ← r.1.edits es
    let x ← l.splitAfter i {}
    .ok (some x)

def seenSplit (raw : List String) (es : List Edit) (i : Nat) : Res (Option (Bool × Seen × Seen)) := do
  let r ← afterSplit raw es i
  .ok (r.map (fun x => (x.1, x.2.1.seen, x.2.2.seen)))

/-- The example: a compound line over two physical lines, with a trailing comment. -/
def splitRaw : List String := ["  a=b; c= 4 &     ! one", "     ; d=1"]

/-- All that the theorems about splitting ask of a line. -/
def SplitReady (l : LLine) : Prop :=
  GoodPositions l.layout l.frags ∧ (∀ t ∈ l.frags, EndRight t) ∧ CommentsApart l.layout ∧
  TextOfTokens l.layout l.frags ∧ (∀ u ∈ l.frags, u.token = Tag.TK_SEMICOLON → OnOneLine u)

theorem onOne_of_all (ts : List Tok) (h : (ts.all (fun t => match t.span with
    | none => false
    | some s => s.bl == s.el)) = true) : ∀ t ∈ ts, t.span ≠ none ∧ OnOneLine t := by
  intro t ht
  have := List.all_eq_true.mp h t ht
  cases hs : t.span with
  | none => simp [hs] at this
  | some s =>
    simp [hs] at this
    exact ⟨by simp, fun s' hs' => by rw [hs] at hs'; obtain rfl := Option.some.inj hs'; exact this⟩

/-- The example line meets the hypotheses. -/
example : ∃ fs r, freeLines splitRaw = .ok (some fs) ∧ LLine.ofLines {} fs = .ok r ∧ SplitReady r.1 ∧
    (∀ t, r.1.frags[3]? = some t → t.token = Tag.TK_SEMICOLON) ∧
    ∃ x, r.1.splitAfter 2 {} = .ok (true, x) := by
  have hp : ∃ fs, freeLines splitRaw = .ok (some fs) ∧ PlainLayout fs ∧ (∀ f ∈ fs, f.isTrivial = false) ∧
      ∃ r, LLine.ofLines {} fs = .ok r ∧ (∀ t ∈ r.1.frags, t.span ≠ none ∧ OnOneLine t) ∧
      CommentsApart r.1.layout ∧ TextOfTokens r.1.layout r.1.frags ∧
      ((r.1.frags[3]?).map (·.token)) = some Tag.TK_SEMICOLON ∧
      ∃ x, r.1.splitAfter 2 {} = .ok (true, x) := by
    refine ⟨_, rfl, ?_, by decide, _, rfl, onOne_of_all _ (by decide +kernel), ?_, ?_, by decide +kernel, _, rfl⟩
    · constructor
      · decide +kernel
      · intro f hf
        simp only [codeLines] at hf
        obtain rfl : f = _ := (Option.some.inj hf).symm
        exact ⟨_, _, rfl, by decide⟩
    · unfold CommentsApart; decide +kernel
    · unfold TextOfTokens; decide +kernel
  obtain ⟨fs, h1, h2, h3, r, h4, h5, h6, h7, h8, x, h9⟩ := hp
  obtain ⟨r1, st'⟩ := r
  obtain ⟨g1, g2⟩ := C42_fresh {} st' { layout := fs } r1 (by unfold LineState Flex.Between; simp) h2 h3 h4 (fun t ht => (h5 t ht).1)
  refine ⟨fs, (r1, st'), h1, h4, ⟨g1, g2, h6, h7, fun u hu _ => (h5 u hu).2⟩, ?_, x, h9⟩
  intro t ht
  rw [ht] at h8
  simpa using h8

/-- What becomes of it, split after the first statement … -/
example : seenSplit splitRaw [] 2 = .ok (some (true,
    ⟨["  a=b             ! one"], [("a", some (0, 0, 0, 1)), ("=", some (0, 1, 0, 2)), ("b", some (0, 2, 0, 3))]⟩,
    ⟨["  c= 4     &", "     ; d=1"], [("c", some (0, 0, 0, 1)), ("=", some (0, 1, 0, 2)), ("4", some (0, 3, 0, 4)),
      (";", some (1, 0, 1, 1)), ("d", some (1, 2, 1, 3)), ("=", some (1, 3, 1, 4)), ("1", some (1, 4, 1, 5))]⟩)) := by
  decide +kernel

/-- … and after the second one: the semicolon begins the new line. -/
example : seenSplit splitRaw [] 6 = .ok (some (true,
    ⟨["  a=b; c= 4       ! one"], [("a", some (0, 0, 0, 1)), ("=", some (0, 1, 0, 2)), ("b", some (0, 2, 0, 3)),
      (";", some (0, 3, 0, 4)), ("c", some (0, 5, 0, 6)), ("=", some (0, 6, 0, 7)), ("4", some (0, 8, 0, 9))]⟩,
    ⟨["  ; d=1"], [(";", some (0, 0, 0, 1)), ("d", some (0, 2, 0, 3)), ("=", some (0, 3, 0, 4)),
      ("1", some (0, 4, 0, 5))]⟩)) := by
  decide +kernel

/-- `C20_comment` applies to the first physical line: its right text is an ampersand, blanks and a comment. -/
example : ∃ f f1, analyzeFree 1 "  a=b; c= 4 &     ! one".toList NUL false false = .ok (f, false) ∧
    f.right_txt = "&     ".toList ++ '!' :: " one".toList ∧ splitSource f 3 = .ok f1 := by
  refine ⟨_, _, rfl, by decide +kernel, rfl⟩

/-! ## Violations -/

/-- **C20** The text need not be that of the tokens: a semicolon at the end of the physical line stays in
the text of the line, but is no longer among its tokens. -/
theorem C20_violation_semicolon : seenSplit ["a=b;&", "  & c"] [] 2 = .ok (some (true,
    ⟨["a=b;"], [("a", some (0, 0, 0, 1)), ("=", some (0, 1, 0, 2)), ("b", some (0, 2, 0, 3))]⟩,
    ⟨[" c"], [("c", some (0, 1, 0, 2))]⟩)) := by
  decide +kernel

/-- **C20** A comment between continued lines: the tokens of the new line claim to be in the comment. -/
theorem C20_violation_comment : seenSplit ["a=b; &", "! note", "", "c=d"] [] 2 = .ok (some (true,
    ⟨["a=b;"], [("a", some (0, 0, 0, 1)), ("=", some (0, 1, 0, 2)), ("b", some (0, 2, 0, 3))]⟩,
    ⟨["! note", "", "c=d"], [("c", some (0, 0, 0, 1)), ("=", some (0, 1, 0, 2)), ("d", some (0, 2, 0, 3))]⟩)) := by
  decide +kernel

/-- **C20** Behind such a comment the comment is taken for the line to be split, and the call throws. -/
theorem C20_violation_throws : seenSplit ["a=b &", "! note", "+c; d=e"] [] 4 = .error .exc := by
  decide +kernel

/-- **C20** Only comments and blank lines follow: the first of no tokens is read. -/
theorem C20_violation_no_tokens : seenSplit ["a=b; &", "! note", ""] [] 2 = .error .ub := by
  decide +kernel

/-- **C20** The last line is not split, but its continuation mark is gone although false is returned. -/
theorem C20_violation_refused : seenSplit ["a=b &"] [] 2 = .ok (some (false,
    ⟨["a=b"], [("a", some (0, 0, 0, 1)), ("=", some (0, 1, 0, 2)), ("b", some (0, 2, 0, 3))]⟩,
    ⟨[], []⟩)) := by
  decide +kernel

/-- **C20** After a replacement the end column is stale, and the split cuts the replaced name. -/
theorem C20_violation_edited : seenSplit ["a; c=d"] [.replace 0 Tag.TK_NAME "long".toList] 0 =
    .ok (some (true, ⟨["l"], [("long", some (0, 0, 0, 1))]⟩,
      ⟨["c=d"], [("c", some (0, 0, 0, 1)), ("=", some (0, 1, 0, 2)), ("d", some (0, 2, 0, 3))]⟩)) := by
  decide +kernel

/-- **C20** A fused keyword behind: an uninitialised position is read. -/
theorem C20_violation_fused : seenSplit ["a=b; enddo"] [] 2 = .error .ub := by
  decide +kernel

/-- **C20** More physical lines than tokens: the assertion about the line number fails, as it is compared
with the number of tokens. -/
theorem C20_violation_assertion : seenSplit ["'a&", "&b&", "&c'"] [] 0 = .error .assertion := by
  decide +kernel

/-- **C20** The new line keeps the flag of a label, though the label remains with the old one. -/
theorem C20_violation_label : (afterSplit ["3 a=b; c=d"] [] 2).map (Option.map (fun x =>
      x.2.2.layout.map (fun f => (f.bits.label, f.left_txt)))) =
    .ok (some [(true, [])]) := by
  decide +kernel

/-- A fixed-format line is read and split. -/
def fixedSplit (raw : String) (i : Nat) : Res (Seen × Seen) := do
  let f ← analyzeFixed 1 raw.toList NUL 72
  let r ← LLine.ofLines {} [f]
  let x ← r.1.splitAfter i {}
  .ok (x.2.1.seen, x.2.2.seen)

/-- **C20** In fixed format the new line is indented six columns too far. -/
theorem C20_violation_fixed : fixedSplit "      a=b; c=d" 2 = .ok (
    ⟨["      a=b"], [("a", some (0, 0, 0, 1)), ("=", some (0, 1, 0, 2)), ("b", some (0, 2, 0, 3))]⟩,
    ⟨["            c=d"], [("c", some (0, 0, 0, 1)), ("=", some (0, 1, 0, 2)), ("d", some (0, 2, 0, 3))]⟩) := by
  decide +kernel

end FLPR
