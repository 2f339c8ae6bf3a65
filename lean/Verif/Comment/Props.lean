import Verif.Comment.Build
import Verif.Comment.Note
import Verif.Indent.RereadTree
/-!
# Properties: comments do not matter (C77)
-/

namespace FLPR
open Spec SP PP PF

/-! ### Comment lines and blank lines -/

/-- The lines of a file, and the lines of the file with more lines put in. -/
def LinesPutIn (o o' : Option (List FileLine)) : Prop :=
  match o, o' with
  | none, none => True
  | some l, some l' => (∀ f ∈ l, FreeKind f) ∧ (∀ f ∈ l', FreeKind f) ∧
      List.Forall₂ (List.Forall₂ CodeLine) (runLines .idle l) (runLines .idle l')
  | _, _ => False

theorem analyze_putIn (A C B : List Str) (hs : CommentSpot A) (hc : ∀ c ∈ C, Idle A c) :
    BothWays LinesPutIn (analyzeAllFree 1 NUL false false (A ++ B)) (analyzeAllFree 1 NUL false false (A ++ (C ++ B))) := by
  obtain ⟨h1, h2⟩ := analyzeAllFree_append A 1 NUL false false (by decide)
  by_cases hA : ∃ fs, analyzeAllFree 1 NUL false false A = .ok (some fs)
  · obtain ⟨fs, hA⟩ := hA
    obtain ⟨pd, pc, lit, h3, h4, h5⟩ := h1 fs hA
    have hk := fun B gs (h : analyzeAllFree 1 NUL false false B = .ok (some gs)) => analyzeAllFree_kind (by decide) h
    have hst : pd = NUL ∧ lit = false := by
      cases hl : fs.getLast? with
      | none =>
        rw [List.getLast?_eq_none_iff] at hl
        obtain ⟨e1, e2, e3⟩ := h4 hl
        exact ⟨e1, e3⟩
      | some f =>
        obtain ⟨e1, e2, e3⟩ := h5 f hl
        obtain ⟨q1, q2, q3⟩ := hs fs hA f hl
        refine ⟨e1.trans q1, ?_⟩
        by_contra hc
        have := e3 (by simpa using hc)
        rw [q2] at this
        cases this
    obtain ⟨rfl, rfl⟩ := hst
    have hpc : EndsContinued A ∨ pc = false := by
      cases hl : fs.getLast? with
      | none =>
        rw [List.getLast?_eq_none_iff] at hl
        exact .inr (h4 hl).2.1
      | some f =>
        cases hb : f.bits.continued with
        | true => exact .inl ⟨fs, f, hA, hl, hb⟩
        | false => exact .inr ((h5 f hl).2.1.trans hb)
    obtain ⟨fc, c1, c2⟩ := analyze_inserted pc C (fun c hm => by
      rcases hc c hm with h | ⟨h, hn⟩
      · exact .inl h
      · exact .inr ⟨h, hpc.resolve_left hn⟩) (1 + A.length)
    have k1 := hk (A ++ B)
    have k2 := hk (A ++ (C ++ B))
    rw [h3] at k1 k2 ⊢
    rw [h3]
    rw [c2 B] at k2 ⊢
    have hn := analyzeAllFree_number B (1 + A.length) (1 + A.length + C.length) NUL pc false
    revert hn k1 k2
    cases analyzeAllFree (1 + A.length) NUL pc false B with
    | error e =>
      cases analyzeAllFree (1 + A.length + C.length) NUL pc false B with
      | ok _ => intro _ _ h; exact h.elim
      | error e' => intro _ _ h; exact h
    | ok o =>
      cases analyzeAllFree (1 + A.length + C.length) NUL pc false B with
      | error e' => intro _ _ h; exact h.elim
      | ok o' =>
        intro k1 k2 h
        have h : Lists Renumbered o o' := h
        cases o with
        | none =>
          cases o' with
          | none => exact BW.ok (show LinesPutIn none none from trivial)
          | some _ => exact h.elim
        | some gs =>
          cases o' with
          | none => exact h.elim
          | some gs' =>
            have h : List.Forall₂ Renumbered gs gs' := h
            refine BW.ok (show LinesPutIn (some (fs ++ gs)) (some (fs ++ (fc ++ gs'))) from ⟨k1 _ rfl, k2 _ rfl, ?_⟩)
            have hrun : runLines .idle (fs ++ (fc ++ gs')) = runLines .idle (fs ++ gs') := by
              rw [runLines_append .idle fs (fc ++ gs'), runLines_append .idle fs gs', runLines_trivial ?_ fc gs' c1]
              intro t ht
              rcases runEnd_splice fs .idle (hk A fs hA) ht with ⟨_, h⟩ | ⟨f, e1, e2⟩
              · cases h
              · exact fun hb => (hs fs hA f e1).2.2 (e2.mp hb)
            rw [hrun]
            refine runLines_code (forall2_concat ?_ (h.imp (fun _ _ => renumbered_code))) .idle
            exact List.forall₂_same.mpr (fun f _ => codeLine_refl f)
  · have hA : ∀ fs, analyzeAllFree 1 NUL false false A ≠ .ok (some fs) := fun fs h => hA ⟨fs, h⟩
    rw [h2 hA B, h2 hA (C ++ B)]
    revert hA
    cases analyzeAllFree 1 NUL false false A with
    | error e => intro _; exact BW.err _
    | ok o =>
      intro hA
      cases o with
      | none => exact BW.ok (show LinesPutIn none none from trivial)
      | some fs => exact absurd rfl (hA fs)

/-- What is made of the groups of two files: both cannot be read, or both have the same statements. -/
def SameReading (o o' : Option (List Group)) : Prop :=
  match o, o' with
  | none, none => True
  | some gs, some gs' => ∀ st, BothWays SameStatements (buildLines st gs) (buildLines st gs')
  | _, _ => False

theorem scan_same {raws raws' : List Str}
    (h : BothWays LinesPutIn (analyzeAllFree 1 NUL false false raws) (analyzeAllFree 1 NUL false false raws')) :
    BothWays SameReading (scanFree raws) (scanFree raws') := by
  unfold scanFree
  refine BW.bind h (fun o o' ho => ?_)
  cases o with
  | none =>
    cases o' with
    | none => exact BW.ok (show SameReading none none from trivial)
    | some _ => exact ho.elim
  | some l =>
    cases o' with
    | none => exact ho.elim
    | some l' =>
      obtain ⟨k1, k2, hr⟩ := ho
      obtain ⟨gs, gs', e1, e2, e3⟩ := groups_same k1 k2 hr
      dsimp only
      rw [e1, e2]
      exact BW.ok (show SameReading (some gs) (some gs') from e3)

/-- C77: comment lines and blank lines do not matter in free format.  Lines `C` put between the lines `A` and `B` of a file do not change whether
and how reading it fails, nor its statements: the labels, the tokens with their texts and columns, and the places of the tokens in the statements
stay the same, and so does the state in which the scanner is left; only line numbers differ.  `A` must not end in a character string that is
continued, in text to be left alone, or in a backslash, and blank lines must not follow a line that is continued. -/
theorem C77_comment_lines (A C B : List Str) (hs : CommentSpot A) (hc : ∀ c ∈ C, Idle A c) :
    BothWays SameReading (scanFree (A ++ B)) (scanFree (A ++ (C ++ B))) := scan_same (analyze_putIn A C B hs hc)

/-! ### Trailing comments -/

/-- Line `w` behind the lines `A` is a line of Fortran at the end of which no character string is open. -/
def Spec.NoteSpot (A : List Str) (w : Str) : Prop :=
  ∃ fs f, analyzeAllFree 1 NUL false false (A ++ [w]) = .ok (some fs) ∧ fs.getLast? = some f ∧ f.isFortran = true ∧ f.open_delim = NUL

theorem analyze_note (A : List Str) (w t : Str) (B : List Str) (hs : NoteSpot A w) (ha : AsciiStr t) (haw : AsciiStr w)
    (hb : EndsBackslash (w ++ '!' :: t) ↔ EndsBackslash w) :
    BothWays LinesPutIn (analyzeAllFree 1 NUL false false (A ++ w :: B)) (analyzeAllFree 1 NUL false false (A ++ (w ++ '!' :: t) :: B)) := by
  obtain ⟨fs, f, h1, h2, h3, h4⟩ := hs
  obtain ⟨a1, a2⟩ := analyzeAllFree_append A 1 NUL false false (by decide)
  have hA : ∃ gs, analyzeAllFree 1 NUL false false A = .ok (some gs) := by
    by_contra hn
    have hn : ∀ gs, analyzeAllFree 1 NUL false false A ≠ .ok (some gs) := fun gs h => hn ⟨gs, h⟩
    rw [a2 hn [w]] at h1
    exact hn _ h1
  obtain ⟨gs, hA⟩ := hA
  obtain ⟨pd, pc, lit, a3, _, _⟩ := a1 gs hA
  have hk := fun B gs (h : analyzeAllFree 1 NUL false false B = .ok (some gs)) => analyzeAllFree_kind (by decide) h
  have k1 := hk (A ++ w :: B)
  have k2 := hk (A ++ (w ++ '!' :: t) :: B)
  rw [a3] at k1 k2 h1 ⊢
  rw [a3]
  rw [analyzeAllFree] at k1 k2 h1 ⊢
  rw [analyzeAllFree]
  cases hw : analyzeFree ((1 + A.length : Nat) : Int) w pd pc lit with
  | error e =>
    rw [hw] at h1
    cases e <;> cases h1
  | ok x =>
    obtain ⟨g, l⟩ := x
    rw [hw] at h1 k1
    have hgf : g = f := by
      have h1 : (Except.ok (some (gs ++ [g])) : Res (Option (List FileLine))) = .ok (some fs) := h1
      injection h1 with h1
      injection h1 with h1
      rw [← h1] at h2
      simpa using h2
    subst hgf
    have hn := analyzeFree_note ha haw hw h3 h4
    have hcode : CodeLine g { g with right_txt := g.right_txt ++ '!' :: t } := by
      refine ⟨rfl, ?_⟩
      rw [C01_free_roundtrip _ _ _ _ _ _ _ hn, C01_free_roundtrip _ _ _ _ _ _ _ hw]
      exact hb
    rw [hn] at k2 ⊢
    dsimp only at k1 k2 ⊢
    revert k1 k2
    cases analyzeAllFree (1 + A.length + 1) g.open_delim g.bits.continued l B with
    | error e => intro _ _; exact BW.err _
    | ok o =>
      cases o with
      | none => intro _ _; exact BW.ok (show LinesPutIn none none from trivial)
      | some m =>
        intro k2 k1
        refine BW.ok (show LinesPutIn (some (gs ++ g :: m)) (some (gs ++ _ :: m)) from ⟨k1 _ rfl, k2 _ rfl, ?_⟩)
        have hr : ∀ l : List FileLine, List.Forall₂ CodeLine l l := fun l => List.forall₂_same.mpr (fun f _ => codeLine_refl f)
        exact runLines_code (forall2_concat (hr gs) (.cons hcode (hr m))) .idle

/-- C77: a comment put at the end of a line of Fortran, outside character strings, does not matter in free format: it changes neither whether and
how reading the file fails nor the statements, nor the line numbers.  The comment must not change whether the line ends in a backslash. -/
theorem C77_trailing_comment (A : List Str) (w t : Str) (B : List Str) (hs : NoteSpot A w) (ha : AsciiStr t) (haw : AsciiStr w)
    (hb : EndsBackslash (w ++ '!' :: t) ↔ EndsBackslash w) :
    BothWays SameReading (scanFree (A ++ w :: B)) (scanFree (A ++ (w ++ '!' :: t) :: B)) := scan_same (analyze_note A w t B hs ha haw hb)

/-! ### Trees -/

theorem stmtElsewhere_equiv {s s' : LStmt} (h : StmtElsewhere s s') : EquivStmt s s' :=
  ⟨h.label, h.toks.imp (fun _ _ => tokElsewhere_equiv), h.lo, h.hi, h.pos⟩

/-- C77: files with the same statements but for line numbers have the same tree. -/
theorem C77_tree (x : Exts) (hx : Indifferent x) (r r' : List LLine × Flex.State) (h : SameStatements r r') (t : Option PNode) :
    TreeIs x r.1 t ↔ TreeIs x r'.1 t := by
  suffices hs : ∀ ls ls' : List LLine, List.Forall₂ StmtElsewhere (statementsIn ls) (statementsIn ls') → TreeIs x ls t → TreeIs x ls' t from
    ⟨hs _ _ h.stmts, hs _ _ (forall2_flip stmtElsewhere_symm h.stmts)⟩
  intro ls ls' hss ht
  have hlen : (stmtsOf ls').length = (stmtsOf ls).length := by
    have := hss.length_eq
    simpa [statementsIn] using this.symm
  have hnil : stmtsOf ls' = [] ↔ stmtsOf ls = [] := by rw [← List.length_eq_zero_iff, hlen, List.length_eq_zero_iff]
  rcases ht with ⟨h1, h2⟩ | ⟨h1, o, h2, h3, h4⟩
  · exact .inl ⟨hnil.mpr h1, h2⟩
  · have he : EquivState (stateOf ls (stmtsOf ls)) (stateOf ls' (stmtsOf ls')) := by
      refine ⟨hss.imp (fun _ _ => stmtElsewhere_equiv), ?_⟩
      unfold stateOf
      rw [hlen]
    obtain ⟨res, r1, r2⟩ := C75_program x hx .program _ _ he _ h2
    cases res with
    | error e => exact r2.elim
    | ok o' =>
      have r2 : SameResult o o' := r2
      exact .inr ⟨fun h => h1 (hnil.mp h), o', r1, by rw [r2.ok, h3], by rw [r2.tree, h4]⟩

/-! ### Where lines put in do matter -/

/-- The labels of the statements of a file and the texts of their tokens. -/
def statementTexts (raws : List String) : Res (Option (List (Int × List String))) := do
  match ← scanFree (raws.map (·.toList)) with
  | none => .ok none
  | some gs =>
    let r ← buildLines {} gs
    .ok (some ((statementsIn r.1).map (fun s => (s.label, ((s.strm.all.take s.strm.hi).drop s.strm.lo).map (fun t => String.ofList t.text)))))

/-- C77: a comment line within a character string that is continued matters, though the standard allows it: the file cannot be read any more. -/
theorem C77_violation_string : statementTexts ["x = 'ab&", "&cd'"] = .ok (some [(0, ["x", "=", "'abcd'"])]) ∧
    statementTexts ["x = 'ab&", "! note", "&cd'"] = .ok none := by decide +kernel

/-- C77: a blank line within a statement matters, though the standard takes it for a comment line: a number at the start of the next line is taken
for a label and is lost. -/
theorem C77_violation_blank : statementTexts ["x = 1 + &", "  2 + y"] = .ok (some [(0, ["x", "=", "1", "+", "2", "+", "y"])]) ∧
    statementTexts ["x = 1 + &", "", "  2 + y"] = .ok (some [(0, ["x", "=", "1", "+", "+", "y"])]) := by decide +kernel

/-- A backslash does matter: a comment line behind it is taken for a part of the preprocessor line. -/
example : statementTexts ["#define A \\", " x = y"] = .ok (some []) ∧
    statementTexts ["#define A \\", "! note", " x = y"] = .ok (some [(0, ["x", "=", "y"])]) := by decide +kernel

/-! ### Examples -/

/-- The hypotheses of `C77_comment_lines` hold for a comment line within a statement, and the number at the start of the next line stays a part of
the statement. -/
example : CommentSpot ["program p".toList, "10 x = 1 + & ! note".toList] ∧
    (∀ c ∈ ["  ! more".toList], Idle ["program p".toList, "10 x = 1 + & ! note".toList] c) ∧
    EndsContinued ["program p".toList, "10 x = 1 + & ! note".toList] ∧
    statementTexts (["program p", "10 x = 1 + & ! note"] ++ (["  ! more"] ++ ["  2 ; y = x", "end"])) =
      .ok (some [(0, ["program", "p"]), (10, ["x", "=", "1", "+", "2"]), (0, ["y", "=", "x"]), (0, ["end"])]) := by
  refine ⟨?_, ?_, ⟨_, _, rfl, rfl, rfl⟩, by decide +kernel⟩
  · intro fs hfs f hf
    have e : analyzeAllFree 1 NUL false false ["program p".toList, "10 x = 1 + & ! note".toList] = .ok (some fs) := hfs
    have e' : ∃ a b, analyzeAllFree 1 NUL false false ["program p".toList, "10 x = 1 + & ! note".toList] = .ok (some [a, b]) ∧
      b.open_delim = NUL ∧ b.bits.flpr_lit = false ∧ lastNonBlankChar b.print ≠ '\\' := ⟨_, _, rfl, by decide, by decide, by decide⟩
    obtain ⟨a, b, e1, e2, e3, e4⟩ := e'
    rw [e1] at e
    injection e with e
    injection e with e
    subst e
    injection hf with hf
    have hf : b = f := hf
    subst hf
    exact ⟨e2, e3, fun h => e4 ((lastNonBlankChar_iff _).mpr h)⟩
  · intro c hc
    rw [List.mem_singleton] at hc
    subst hc
    exact .inl ((C02_free_category 1 "  ! more".toList NUL true false _ false rfl rfl .comment).mp (by decide))

/-- The hypotheses of `C77_trailing_comment` hold for a continued line. -/
example : NoteSpot ["program p".toList] "x = 'it''s !' // &".toList ∧ AsciiStr " note".toList ∧ AsciiStr "x = 'it''s !' // &".toList ∧
    (EndsBackslash ("x = 'it''s !' // &".toList ++ '!' :: " note".toList) ↔ EndsBackslash "x = 'it''s !' // &".toList) ∧
    statementTexts ["program p", "x = 'it''s !' // &! note", "'b'"] =
      .ok (some [(0, ["program", "p"]), (0, ["x", "=", "'it''s !'", "//", "'b'"])]) := by
  refine ⟨⟨_, _, rfl, rfl, by decide, by decide⟩, by unfold AsciiStr; decide, by unfold AsciiStr; decide, ?_, by decide +kernel⟩
  rw [← lastNonBlankChar_iff, ← lastNonBlankChar_iff]
  decide

end FLPR
