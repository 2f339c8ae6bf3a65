import Verif.LogicalFile.ConvertFile
import Verif.LogicalFile.ConvertCheck
/-!
# C21: converting fixed format to free format
-/

namespace FLPR
open Spec

/-! ## What the conversion does to the fields -/

theorem convRight_converted (f : FileLine) (h : f.bits.fixed_format = false) :
    (convRight f).bits.fixed_format = false ∧ (convRight f).main_txt = f.main_txt ∧
    (convRight f).open_delim = f.open_delim ∧ (convRight f).linenum = f.linenum ∧
    (convRight f).bits.label = f.bits.label ∧ (convRight f).isFortran = f.isFortran ∧
    (convRight f).left_txt = f.left_txt ∧
    ∃ w, f.right_space ++ f.right_txt = w ++ (convRight f).right_space ++ f.right_txt ∧
      ((convRight f).right_txt = f.right_txt ∨ (f.right_txt = [] ∧ (convRight f).right_txt = ['&']) ∨
        (convRight f).right_txt = '&' :: ' ' :: f.right_txt) := by
  unfold convRight
  cases hr : f.right_txt with
  | nil => exact ⟨h, rfl, rfl, rfl, rfl, rfl, rfl, [], by simp, by simp⟩
  | cons c t =>
    refine ⟨h, rfl, rfl, rfl, rfl, rfl, rfl, ?_⟩
    dsimp only
    by_cases hc : f.open_delim = NUL ∧ f.right_space.length > 2
    · rw [if_pos hc]
      exact ⟨f.right_space.take 2, by simp, Or.inr (Or.inr rfl)⟩
    · rw [if_neg hc]
      exact ⟨[], by simp, Or.inr (Or.inr rfl)⟩

theorem step_right (f : FileLine) (b : Prop) [Decidable b] :
    let g := if b then convRight (unfix f) else unfix f
    g.bits.fixed_format = false ∧ g.main_txt = f.main_txt ∧
    g.open_delim = f.open_delim ∧ g.linenum = f.linenum ∧
    g.bits.label = f.bits.label ∧ g.isFortran = f.isFortran ∧ g.left_txt = f.left_txt ∧
    ∃ w, f.right_space ++ f.right_txt = w ++ g.right_space ++ f.right_txt ∧
      (g.right_txt = f.right_txt ∨ (f.right_txt = [] ∧ g.right_txt = ['&']) ∨
        g.right_txt = '&' :: ' ' :: f.right_txt) := by
  dsimp only
  split
  · exact convRight_converted (unfix f) rfl
  · exact ⟨rfl, rfl, rfl, rfl, rfl, rfl, rfl, [], by simp [unfix], Or.inl rfl⟩

theorem convComment_converted {f g : FileLine} (hc : f.bits.comment = true)
    (h : convComment (unfix f) = .ok g) : ConvertedLine f g := by
  unfold convComment at h
  split at h
  · simp at h
  · rename_i c t hl
    simp only [Except.ok.injEq] at h
    by_cases hs : c = ' '
    · rw [if_neg (by simp [hs])] at h
      subst h
      exact ⟨rfl, rfl, rfl, rfl, rfl, rfl, fun _ _ => ⟨hc, t, Or.inr (by rw [hl, hs])⟩, fun _ _ => rfl,
        [], by simp [unfix], Or.inl rfl⟩
    · rw [if_pos hs] at h
      subst h
      exact ⟨rfl, rfl, rfl, rfl, rfl, rfl, fun _ _ => ⟨hc, t, Or.inl rfl⟩,
        fun _ h => (by rw [hc] at h; simp at h), [], by simp [unfix], Or.inl rfl⟩

theorem unfix_converted {f : FileLine} (hc : f.bits.comment = false) :
    ConvertedLine f (unfix f) :=
  ⟨rfl, rfl, rfl, rfl, rfl, rfl, fun h => by rw [hc] at h; simp at h, fun _ _ => rfl, [],
    by simp [unfix], Or.inl rfl⟩

theorem convStmt_converted {total : Nat} : ∀ {fs r : List FileLine} {k i : Nat} {q : List Int},
    convStmt total k i q (fs.map unfix) = .ok r → List.Forall₂ ConvertedLine fs r
  | [], r, _, _, _, h => by simp [convStmt] at h; rw [h]; exact .nil
  | f :: fs, r, k, i, q, h => by
    rw [List.map_cons] at h
    unfold convStmt at h
    by_cases hf : f.isFortran = true
    · have hf' : (unfix f).isFortran = true := hf
      rw [if_pos hf'] at h
      dsimp only at h
      obtain ⟨s1, s2, s3, s4, s5, s6, s7, s8⟩ := step_right f (k + 1 < total)
      by_cases hk : k = 0
      · rw [if_pos hk] at h
        rbind h with r' hr
        simp only [Except.ok.injEq] at h
        rw [← h]
        refine .cons ?_ (convStmt_converted hr)
        generalize (if k + 1 < total then convRight (unfix f) else unfix f) = g at *
        have hg : (convFirst g).bits = g.bits ∧ (convFirst g).main_txt = g.main_txt ∧
            (convFirst g).open_delim = g.open_delim ∧ (convFirst g).linenum = g.linenum ∧
            (convFirst g).right_space = g.right_space ∧ (convFirst g).right_txt = g.right_txt := by
          unfold convFirst
          split <;> exact ⟨rfl, rfl, rfl, rfl, rfl, rfl⟩
        obtain ⟨g1, g2, g3, g4, g5, g6⟩ := hg
        have hfo : (convFirst g).isFortran = f.isFortran := by
          rw [← s6]; simp [FileLine.isFortran, FileLine.isTrivial, g1]
        exact ⟨by rw [g1]; exact s1, by rw [g2]; exact s2, by rw [g3]; exact s3, by rw [g4]; exact s4,
          by rw [g1]; exact s5, hfo, fun _ h => (by rw [hf] at h; simp at h),
          fun h => (by rw [hf] at h; simp at h), by rw [g5, g6]; exact s8⟩
      · rw [if_neg hk] at h
        rbind h with f2 hf2
        rbind h with r' hr
        simp only [Except.ok.injEq] at h
        rw [← h]
        refine .cons ?_ (convStmt_converted hr)
        generalize (if k + 1 < total then convRight (unfix f) else unfix f) = g at *
        unfold convLater at hf2
        split at hf2
        · simp at hf2
        split at hf2
        · simp only [Except.ok.injEq] at hf2
          rw [← hf2]
          exact ⟨s1, s2, s3, s4, s5, s6, fun _ h => (by rw [hf] at h; simp at h),
            fun h => (by rw [hf] at h; simp at h), s8⟩
        split at hf2
        · simp only [Except.ok.injEq] at hf2
          rw [← hf2]
          exact ⟨s1, s2, s3, s4, s5, s6, fun _ h => (by rw [hf] at h; simp at h),
            fun h => (by rw [hf] at h; simp at h), s8⟩
        · simp at hf2
    · have hf0 : f.isFortran = false := by simpa using hf
      have hf' : (unfix f).isFortran = false := hf0
      rw [if_neg (by rw [hf']; simp)] at h
      by_cases hc : f.bits.comment = true
      · have hc' : (unfix f).bits.comment = true := hc
        rw [if_pos hc'] at h
        rbind h with f1 hf1
        rbind h with r' hr
        simp only [Except.ok.injEq] at h
        rw [← h]
        exact .cons (convComment_converted hc hf1) (convStmt_converted hr)
      · have hc0 : f.bits.comment = false := by simpa using hc
        have hc' : (unfix f).bits.comment = false := hc0
        rw [if_neg (by rw [hc']; simp)] at h
        rbind h with r' hr
        simp only [Except.ok.injEq] at h
        rw [← h]
        exact .cons (unfix_converted hc0) (convStmt_converted hr)

theorem convOther_converted : ∀ {fs r : List FileLine},
    convOther (fs.map unfix) = .ok r → List.Forall₂ ConvertedLine fs r
  | [], r, h => by simp [convOther] at h; rw [h]; exact .nil
  | f :: fs, r, h => by
    rw [List.map_cons] at h
    unfold convOther at h
    rbind h with f1 hf1
    rbind h with r' hr
    simp only [Except.ok.injEq] at h
    rw [← h]
    refine .cons ?_ (convOther_converted hr)
    by_cases hc : f.bits.comment = true
    · have hc' : (unfix f).bits.comment = true := hc
      rw [if_pos hc'] at hf1
      exact convComment_converted hc hf1
    · have hc0 : f.bits.comment = false := by simpa using hc
      have hc' : (unfix f).bits.comment = false := hc0
      rw [if_neg (by rw [hc']; simp)] at hf1
      simp only [Except.ok.injEq] at hf1
      rw [← hf1]
      exact unfix_converted hc0

/-- The label of the statement is on its first line. -/
theorem convStmt_first {total : Nat} {f : FileLine} {fs r : List FileLine} {q : List Int}
    (hf : f.isFortran = true) (h : convStmt total 0 0 q ((f :: fs).map unfix) = .ok r) :
    ∃ g r', r = g :: r' ∧ g.left_txt = f.left_txt := by
  rw [List.map_cons] at h
  unfold convStmt at h
  have hf' : (unfix f).isFortran = true := hf
  rw [if_pos hf'] at h
  dsimp only at h
  rw [if_pos rfl] at h
  rbind h with r' hr
  simp only [Except.ok.injEq] at h
  refine ⟨_, r', h.symm, ?_⟩
  obtain ⟨_, _, _, _, _, _, s7, _⟩ := step_right f (0 + 1 < total)
  generalize (if 0 + 1 < total then convRight (unfix f) else unfix f) = g at *
  unfold convFirst
  split
  · exact s7
  · exact s7

/-- **C21** (fields) Whenever the conversion of a logical line finishes: it is converted exactly when
its first line is fixed-format; otherwise nothing changes.  A converted line keeps everything but the
layout, the layout keeps its number of lines, no line of it is fixed-format, the statement text, the
line number, the label flag and the kind of every line are kept, the label text of the first line is
kept, text to the right of the statement is kept, and a comment line starts with an exclamation mark
or a blank. -/
theorem C21_fields (l l' : LLine) (changed : Bool) (h : convertLine l = .ok (l', changed)) :
    (changed = true ↔ ∃ f ∈ l.layout.head?, f.bits.fixed_format = true) ∧
    (changed = false → l' = l) ∧
    { l' with layout := l.layout } = l ∧
    (changed = true → List.Forall₂ ConvertedLine l.layout l'.layout) ∧
    (∀ f g, l.layout.head? = some f → f.isFortran = true → l'.layout.head? = some g →
      g.left_txt = f.left_txt) := by
  unfold convertLine at h
  cases hl : l.layout with
  | nil =>
    rw [hl] at h
    simp at h
    obtain ⟨rfl, rfl⟩ := h
    rw [← hl]
    refine ⟨by simp [hl], fun _ => rfl, rfl, by simp, by simp [hl]⟩
  | cons f fs =>
    rw [hl] at h
    dsimp only at h
    by_cases hx : f.bits.fixed_format = false
    · rw [if_pos hx] at h
      simp at h
      obtain ⟨rfl, rfl⟩ := h
      refine ⟨by simp [hx], fun _ => rfl, by rw [← hl], by simp, ?_⟩
      intro a b h1 _ h2
      rw [hl] at h2
      simp at h1 h2
      rw [← h1, ← h2]
    · have hx1 : f.bits.fixed_format = true := by simpa using hx
      rw [if_neg hx] at h
      by_cases hf : f.isFortran = true
      · have hf' : (unfix f).isFortran = true := hf
        rw [if_pos hf'] at h
        rbind h with q hq
        rbind h with r hr
        simp only [Except.ok.injEq, Prod.mk.injEq] at h
        obtain ⟨rfl, rfl⟩ := h
        refine ⟨by simp [hx1], by simp, by rw [← hl], fun _ => convStmt_converted hr, ?_⟩
        intro a b h1 _ h2
        obtain ⟨g, r', h3, h4⟩ := convStmt_first hf hr
        simp at h1
        rw [h3] at h2
        simp at h2
        rw [← h1, ← h2]; exact h4
      · have hf0 : f.isFortran = false := by simpa using hf
        have hf' : (unfix f).isFortran = false := hf0
        rw [if_neg (by rw [hf']; simp)] at h
        rbind h with r hr
        simp only [Except.ok.injEq, Prod.mk.injEq] at h
        obtain ⟨rfl, rfl⟩ := h
        refine ⟨by simp [hx1], by simp, by rw [← hl],
          fun _ => convOther_converted hr, ?_⟩
        intro a b h1 h2 _
        simp at h1
        rw [h1, h2] at hf0; simp at hf0

/-! ## Reading the result again -/

/-- **C21** (re-reading) A fixed-format file of plain text is scanned and converted; if its logical
lines avoid what `Convertible` lists, the conversion finishes, the printed result can be read as free
format, and line for line it shows the same statement text, label and kind of line. -/
theorem C21_reread_partial (raws : List Str) (lastCol : Int) (gs : List Group) (st st' : Flex.State)
    (lines : List LLine) (hraw : ∀ r ∈ raws, PlainFixed lastCol r)
    (hscan : scanFixed raws lastCol = .ok (some gs)) (hbuild : buildLines st gs = .ok (lines, st'))
    (hconv : ∀ l ∈ lines, Convertible l) :
    ∃ lines' fl', convertFile lines = .ok (lines', decide (lines ≠ [])) ∧
      lines'.length = lines.length ∧
      analyzeAllFree 1 NUL false false (fileText lines') = .ok (some fl') ∧
      List.Forall₂ SameContent (lines.flatMap (·.layout)) fl' := by
  obtain ⟨fl, h1, h2⟩ := C46_fixed_groups raws lastCol gs hscan
  obtain ⟨lines', c1, c2, c3⟩ := file_reads h2 (buildLines_layout hbuild) hconv (fixChain_of_all hraw h1)
  obtain ⟨gl, g1, g2⟩ := c3 1
  exact ⟨lines', gl, c1, c2, g2, g1⟩

/-- The hypotheses of the re-reading theorem on a concrete file. -/
def readyB (raws : List Str) (lc : Int) : Bool :=
  raws.all (plainB lc) &&
  match scanFixed raws lc with
  | .ok (some gs) =>
    (match buildLines {} gs with
     | .ok (lines, _) => lines.all convB && !lines.isEmpty
     | _ => false)
  | _ => false

/-- A comment, a labelled statement with a continued string and a split name, a preprocessor line and an
include line meet the hypotheses. -/
example : ∃ gs st' lines, (∀ r ∈ ["c a comment".toList, "   10 x = 'it".toList, "     &s' + lo".toList,
        "     1ng ! note".toList, "#if 1 > 0".toList, "      include 'f.h'".toList], PlainFixed 72 r) ∧
    scanFixed ["c a comment".toList, "   10 x = 'it".toList, "     &s' + lo".toList,
        "     1ng ! note".toList, "#if 1 > 0".toList, "      include 'f.h'".toList] 72 = .ok (some gs) ∧
    buildLines {} gs = .ok (lines, st') ∧ (∀ l ∈ lines, Convertible l) ∧ lines ≠ [] := by
  generalize hr : ["c a comment".toList, "   10 x = 'it".toList, "     &s' + lo".toList,
        "     1ng ! note".toList, "#if 1 > 0".toList, "      include 'f.h'".toList] = raws
  have h : readyB raws 72 = true := by rw [← hr]; decide +kernel
  simp only [readyB, Bool.and_eq_true, List.all_eq_true] at h
  obtain ⟨h1, h2⟩ := h
  split at h2
  · rename_i gs hs
    split at h2
    · rename_i lines st' hb
      simp only [Bool.and_eq_true, List.all_eq_true] at h2
      exact ⟨gs, st', lines, fun r hr => plainB_sound (h1 r hr), hs, hb,
        fun l hl => convB_sound (h2.1 l hl), by simpa using h2.2⟩
    · simp at h2
  · simp at h2

/-! ## Where the conversion goes wrong -/

/-- The printed lines of a fixed-format file after the conversion. -/
def converted (raws : List String) (lc : Int) : Res (Option (List Str)) := do
  match ← scanFixed (raws.map String.toList) lc with
  | none => .ok none
  | some gs =>
    let b ← buildLines {} gs
    let c ← convertFile b.1
    .ok (some (fileText c.1))

/-- What a line shows. -/
structure LineSeen where
  label : Nat
  main : Str
  fortran : Bool
  deriving DecidableEq, Repr

/-- What the lines of a file show when it is read in fixed format. -/
def fixedSeen (raws : List String) (lc : Int) : Res (Option (List LineSeen)) := do
  let r ← analyzeAllFixed lc 1 NUL (raws.map String.toList)
  .ok (r.map (·.map (fun f => ⟨lineLabel f, f.main_txt, f.isFortran⟩)))

/-- What the lines of the converted file show when it is read in free format. -/
def freeSeen (raws : List String) (lc : Int) : Res (Option (List LineSeen)) := do
  match ← converted raws lc with
  | none => .ok none
  | some t =>
    let r ← analyzeAllFree 1 NUL false false t
    .ok (r.map (·.map (fun f => ⟨lineLabel f, f.main_txt, f.isFortran⟩)))

/-- The tokens of the logical lines of a fixed-format file. -/
def fixedToks (raws : List String) (lc : Int) : Res (Option (List (List Str))) := do
  match ← scanFixed (raws.map String.toList) lc with
  | none => .ok none
  | some gs =>
    let b ← buildLines {} gs
    .ok (some (b.1.map (fun l => l.frags.map (·.text))))

/-- The tokens of the logical lines of the converted file, read in free format. -/
def freeToks (raws : List String) (lc : Int) : Res (Option (List (List Str))) := do
  match ← converted raws lc with
  | none => .ok none
  | some t =>
    match ← scanFree t with
    | none => .ok none
    | some gs =>
      let b ← buildLines {} gs
      .ok (some (b.1.map (fun l => l.frags.map (·.text))))

/-- **C21** A fused keyword such as `endif` makes the conversion read the uninitialised position of its
first half. -/
theorem C21_violation_fused : converted ["      endif"] 72 = .error .ub := by decide +kernel

/-- **C21** A comment between the halves of a split name: the ampersand that would join the halves is
missing, and the name falls apart. -/
theorem C21_violation_comment :
    fixedToks ["      x = ab", "c note", "     &cd"] 72 =
      .ok (some [["x".toList, "=".toList, "abcd".toList]]) ∧
    freeToks ["      x = ab", "c note", "     &cd"] 72 =
      .ok (some [["x".toList, "=".toList, "ab".toList, "cd".toList]]) := by
  constructor <;> decide +kernel

/-- **C21** A blank line before a continuation line that begins with a number: the number becomes a
label. -/
theorem C21_violation_blank :
    fixedSeen ["      x = a +", "", "     &10"] 72 =
      .ok (some [⟨0, "x = a +".toList, true⟩, ⟨0, [], false⟩, ⟨0, "10".toList, true⟩]) ∧
    freeSeen ["      x = a +", "", "     &10"] 72 =
      .ok (some [⟨0, "x = a +".toList, true⟩, ⟨0, [], false⟩, ⟨10, [], true⟩]) := by
  constructor <;> decide +kernel

/-- **C21** A preprocessor line before a continuation line: the line in front gets no continuation mark,
and the mark in column 6 becomes a label. -/
theorem C21_violation_ifdef :
    converted ["      x = 1 +", "#ifdef A", "     1 2", "#endif"] 72 =
      .ok (some ["      x = 1 +".toList, "#ifdef A".toList, "     1 2".toList, "#endif".toList]) ∧
    fixedSeen ["      x = 1 +", "#ifdef A", "     1 2", "#endif"] 72 =
      .ok (some [⟨0, "x = 1 +".toList, true⟩, ⟨0, [], false⟩, ⟨0, "2".toList, true⟩, ⟨0, [], false⟩]) ∧
    freeSeen ["      x = 1 +", "#ifdef A", "     1 2", "#endif"] 72 =
      .ok (some [⟨0, "x = 1 +".toList, true⟩, ⟨0, [], false⟩, ⟨1, "2".toList, true⟩, ⟨0, [], false⟩]) := by
  refine ⟨?_, ?_, ?_⟩ <;> decide +kernel

/-- **C21** A directive that begins with `c` keeps its `c` and becomes Fortran text. -/
theorem C21_violation_directive :
    fixedSeen ["c#flpr a b"] 72 = .ok (some [⟨0, [], false⟩]) ∧
    freeSeen ["c#flpr a b"] 72 = .ok (some [⟨0, "c#flpr a b".toList, true⟩]) := by
  constructor <;> decide +kernel

/-- **C21** A continuation line that looks like an include line becomes one. -/
theorem C21_violation_include :
    fixedSeen ["      x =", "     & include 'a'"] 72 =
      .ok (some [⟨0, "x =".toList, true⟩, ⟨0, "include 'a'".toList, true⟩]) ∧
    freeSeen ["      x =", "     & include 'a'"] 72 =
      .ok (some [⟨0, "x =".toList, true⟩, ⟨0, [], false⟩]) := by
  constructor <;> decide +kernel

/-- **C21** Text past the last column behind a continued string: the result cannot be read. -/
theorem C21_violation_overflow :
    freeSeen ["      x = 'abcdefgh", "     &b'"] 16 = .ok none ∧
    converted ["      x = 'abcdefgh", "     &b'"] 16 =
      .ok (some ["      x = 'abcde& ! fgh".toList, "     &b'".toList]) := by
  constructor <;> decide +kernel

/-- **C21** A statement that begins with a number: the number becomes a label. -/
theorem C21_violation_digit :
    fixedSeen ["      10 x = 1"] 72 = .ok (some [⟨0, "10 x = 1".toList, true⟩]) ∧
    freeSeen ["      10 x = 1"] 72 = .ok (some [⟨10, "x = 1".toList, true⟩]) := by
  constructor <;> decide +kernel

/-- **C21** An ampersand in the text ends the line. -/
theorem C21_violation_ampersand :
    fixedSeen ["      x = a & b"] 72 = .ok (some [⟨0, "x = a & b".toList, true⟩]) ∧
    freeSeen ["      x = a & b"] 72 = .ok (some [⟨0, "x = a".toList, true⟩]) := by
  constructor <;> decide +kernel

/-- **C21** A line with nothing but a label is blank before and Fortran after the conversion. -/
theorem C21_violation_label_only :
    fixedSeen [" 10"] 72 = .ok (some [⟨10, [], false⟩]) ∧
    freeSeen [" 10"] 72 = .ok (some [⟨10, [], true⟩]) := by
  constructor <;> decide +kernel

/-- **C21** A continuation line without text ends the statement after the conversion. -/
theorem C21_violation_empty_line :
    fixedToks ["      x = a +", "     &", "     & b"] 72 =
      .ok (some [["x".toList, "=".toList, "a".toList, "+".toList, "b".toList]]) ∧
    freeToks ["      x = a +", "     &", "     & b"] 72 =
      .ok (some [["x".toList, "=".toList, "a".toList, "+".toList], ["b".toList]]) := by
  constructor <;> decide +kernel

end FLPR
