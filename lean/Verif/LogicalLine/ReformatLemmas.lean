import Verif.LogicalLine.Reformat
import Verif.LogicalLine.StmtProps
import Verif.FileLine.ModProps
/-! # Lemmas about `text_from_frags` -/

namespace FLPR

namespace Spec

/-- The text of a continuation line without its leading ampersand. -/
def dropAmp : Str → Str
  | '&' :: s => s
  | s => s

/-- The statement text held by the main texts of the lines of a statement. -/
def joinLines : List Str → Str
  | [] => []
  | m :: ms => m ++ ms.flatMap dropAmp

/-- The lines that hold Fortran text. -/
def fortranLines (fs : List FileLine) : List FileLine := fs.filter FileLine.isFortran

/-- The statement text of a layout. -/
def layoutText (fs : List FileLine) : Str := joinLines ((fortranLines fs).map FileLine.main_txt)

/-- The comment at the end of a line, if any: what is behind a continuation ampersand and blanks. -/
def trailing (f : FileLine) : Str := f.right_txt.dropWhile (fun c => c == '&' || c == ' ')

/-- All comments at the ends of lines. -/
def trailings (fs : List FileLine) : List Str := (fs.map trailing).filter (fun s => !s.isEmpty)

/-- The text is made of the pieces, in order, with any number of blanks before each. -/
inductive Spaced : List Str → Str → Prop
  | nil : Spaced [] []
  | cons (n : Nat) (t : Str) {ts : List Str} {s : Str} : Spaced ts s →
      Spaced (t :: ts) (blanks n ++ t ++ s)

/-- The width of the fields in front of the main text. -/
def leftWidth (f : FileLine) : Nat := f.left_txt.length + f.left_space.length

end Spec
open Spec

theorem joinLines_concat (ms : List Str) (m : Str) :
    joinLines (ms ++ [m]) = joinLines ms ++ (if ms = [] then m else dropAmp m) := by
  cases ms with
  | nil => simp [joinLines]
  | cons a as => simp [joinLines]

theorem dropAmp_append {m x : Str} (h : x.head? ≠ some '&') : dropAmp (m ++ x) = dropAmp m ++ x := by
  cases m with
  | nil =>
    cases x with
    | nil => rfl
    | cons c x =>
      have : c ≠ '&' := by simpa using h
      unfold dropAmp
      simp [this]
  | cons c m =>
    by_cases hc : c = '&'
    · subst hc; rfl
    · unfold dropAmp
      simp [hc]

theorem joinLines_extend {ms : List Str} {m x : Str} (h : x.head? ≠ some '&') :
    joinLines (ms ++ [m ++ x]) = joinLines (ms ++ [m]) ++ x := by
  rw [joinLines_concat, joinLines_concat]
  split
  · simp
  · rw [dropAmp_append h]; simp

/-! ### The line modifiers -/

theorem makeContinued_bits (f : FileLine) :
    f.makeContinued.bits = { f.bits with continued := true } := by
  unfold FileLine.makeContinued
  dsimp only
  split
  · rfl
  · split <;> rfl

theorem makeContinued_fields (f : FileLine) :
    f.makeContinued.main_txt = f.main_txt ∧ f.makeContinued.left_txt = f.left_txt ∧
    f.makeContinued.left_space = f.left_space := by
  unfold FileLine.makeContinued
  dsimp only
  split
  · exact ⟨rfl, rfl, rfl⟩
  · split <;> exact ⟨rfl, rfl, rfl⟩

theorem makeContinued_trailing (f : FileLine) : trailing f.makeContinued = trailing f := by
  unfold FileLine.makeContinued trailing
  dsimp only
  split
  · rename_i h; simp [h]
  · rename_i h t heq
    split
    · simp [heq]
    · simp

theorem makeUncontinued_bits (f : FileLine) :
    f.makeUncontinued.bits = { f.bits with continued := false } := by
  unfold FileLine.makeUncontinued
  dsimp only
  split
  · rfl
  · split <;> rfl

theorem makeUncontinued_fields (f : FileLine) :
    f.makeUncontinued.main_txt = f.main_txt ∧ f.makeUncontinued.left_txt = f.left_txt ∧
    f.makeUncontinued.left_space = f.left_space := by
  unfold FileLine.makeUncontinued
  dsimp only
  split
  · exact ⟨rfl, rfl, rfl⟩
  · split <;> exact ⟨rfl, rfl, rfl⟩

theorem dropWhile_blank_prefix (p : Char → Bool) (hp : p ' ' = true) (s : Str) (pos : Nat)
    (h : ∀ c ∈ s.take pos, c = ' ') : (s.drop pos).dropWhile p = s.dropWhile p := by
  induction pos generalizing s with
  | zero => simp
  | succ n ih =>
    cases s with
    | nil => simp
    | cons c s =>
      have hc : c = ' ' := h c (by simp)
      subst hc
      rw [List.drop_succ_cons, List.dropWhile_cons_of_pos hp]
      exact ih s (fun c hc => h c (by simp [hc]))

theorem makeUncontinued_trailing (f : FileLine) : trailing f.makeUncontinued = trailing f := by
  unfold FileLine.makeUncontinued trailing
  dsimp only
  split
  · rename_i h; simp [h]
  · rename_i h t heq
    have hswap : ((if h = '&' then ' ' else h) :: t).dropWhile (fun c => c == '&' || c == ' ') =
        (h :: t).dropWhile (fun c => c == '&' || c == ' ') := by
      by_cases hh : h = '&'
      · subst hh; simp
      · simp [hh]
    rw [heq, ← hswap]
    split
    · rename_i hn
      have := findFirst_blank_none hn
      symm
      rw [List.dropWhile_nil, List.dropWhile_eq_nil_iff]
      intro c hc
      rw [this] at hc
      rw [List.eq_of_mem_replicate hc]; rfl
    · rename_i pos hs
      apply dropWhile_blank_prefix _ rfl
      intro c hc
      have := findFirst_blank_some hs
      rw [this.2.1] at hc
      exact List.eq_of_mem_replicate hc

theorem Spec.Spaced.concat {ts : List Str} {s : Str} (h : Spaced ts s) (n : Nat) (t : Str) :
    Spaced (ts ++ [t]) (s ++ blanks n ++ t) := by
  induction h with
  | nil => simpa using Spaced.cons n t Spaced.nil
  | cons m u _ ih =>
    have := Spaced.cons m u ih
    simpa using this

theorem isFortran_continued (b : Bool) (f : FileLine) (g : FileLine)
    (h : g.bits = { f.bits with continued := b }) : g.isFortran = f.isFortran := by
  unfold FileLine.isFortran FileLine.isTrivial
  rw [h]

/-! ### The state of the loop -/

/-- The texts written so far. -/
def Fmt.lines (s : Fmt) : List Str :=
  (fortranLines s.done).map FileLine.main_txt ++ [s.cur.main_txt]

/-- What holds between the steps, without the text: `L` is the width in front of the first main
text, `cm` the comment lines and `tr` the trailing comments of the layout. -/
structure FmtInv (L : Nat) (cm : List FileLine) (tr : List Str) (s : Fmt) : Prop where
  curFortran : s.cur.isFortran = true
  done : ∀ f ∈ s.done, f.bits.blank = false ∧
    (f.bits.comment = true ∨ f.isFortran = true ∧ f.bits.continued = true)
  rest : ∀ f ∈ s.rest, f.bits.blank = false ∧ (f.bits.comment = true ∨ f.isFortran = true)
  left : leftWidth s.cur + (if s.done = [] then 2 else 0) ≤ L + 2
  comments : (s.done ++ s.cur :: s.rest).filter (·.bits.comment) = cm
  trail : trailings (s.done ++ s.cur :: s.rest) = tr

theorem fortran_not_comment {f : FileLine} (h : f.isFortran = true) : f.bits.comment = false := by
  unfold FileLine.isFortran FileLine.isTrivial at h
  cases hc : f.bits.comment
  · rfl
  · rw [hc] at h; simp at h

theorem fortran_not_blank {f : FileLine} (h : f.isFortran = true) : f.bits.blank = false := by
  unfold FileLine.isFortran FileLine.isTrivial at h
  cases hc : f.bits.blank
  · rfl
  · rw [hc] at h; simp at h

theorem comment_not_fortran {f : FileLine} (h : f.bits.comment = true) : f.isFortran = false := by
  unfold FileLine.isFortran FileLine.isTrivial
  rw [h]; simp

theorem trailings_append (a b : List FileLine) : trailings (a ++ b) = trailings a ++ trailings b := by
  simp [trailings]

theorem trailings_mid (a : List FileLine) (f : FileLine) (b : List FileLine) :
    trailings (a ++ f :: b) = trailings a ++ (trailings [f] ++ trailings b) := by
  simp [trailings, List.filter_cons]
  split <;> rfl

theorem trailings_single {f g : FileLine} (h : trailing f = trailing g) :
    trailings [f] = trailings [g] := by simp [trailings, h]

/-- Replacing the current line. -/
theorem FmtInv.setCur {L cm tr} {s : Fmt} (h : FmtInv L cm tr s) (g : FileLine)
    (hf : g.isFortran = true) (hl : leftWidth g = leftWidth s.cur)
    (ht : trailing g = trailing s.cur) : FmtInv L cm tr { s with cur := g } := by
  refine ⟨hf, h.done, h.rest, ?_, ?_, ?_⟩
  · simpa [hl] using h.left
  · rw [← h.comments]
    simp [fortran_not_comment h.curFortran, fortran_not_comment hf]
  · rw [← h.trail]
    rw [trailings_mid, trailings_mid]
    rw [trailings_single ht]

/-- Replacing the main text of the current line. -/
theorem FmtInv.setMain {L cm tr} {s : Fmt} (h : FmtInv L cm tr s) (m : Str) :
    FmtInv L cm tr { s with cur := { s.cur with main_txt := m } } :=
  h.setCur _ h.curFortran rfl rfl

/-- The effect of `continue_fl`. -/
theorem continueFl_inv {L cm tr} {s : Fmt} (h : FmtInv L cm tr s) :
    FmtInv L cm tr s.continueFl ∧ s.continueFl.cur.main_txt = [] ∧
    s.continueFl.cur.bits.continued = false ∧
    fortranLines s.continueFl.done ≠ [] ∧
    (fortranLines s.continueFl.done).map FileLine.main_txt = s.lines ∧
    fortranLines s.continueFl.done = fortranLines s.done ++ [s.cur.makeContinued] ∧
    s.continueFl.start = s.start ∧ s.continueFl.maxLen = s.maxLen := by
  have hcf : s.cur.makeContinued.isFortran = true := by
    rw [isFortran_continued true s.cur _ (makeContinued_bits s.cur)]; exact h.curFortran
  have hcm := fortran_not_comment h.curFortran
  have hcm' := fortran_not_comment hcf
  have hskip : ∀ g ∈ s.rest.takeWhile (·.bits.comment), g.bits.comment = true :=
    fun g hg => List.mem_takeWhile_imp (p := fun f : FileLine => f.bits.comment) hg
  have hskf : fortranLines (s.rest.takeWhile (·.bits.comment)) = [] := by
    unfold fortranLines
    rw [List.filter_eq_nil_iff]
    intro g hg
    rw [comment_not_fortran (hskip g hg)]; simp
  have hdone : ∀ f ∈ s.done ++ s.cur.makeContinued :: s.rest.takeWhile (·.bits.comment),
      f.bits.blank = false ∧
      (f.bits.comment = true ∨ f.isFortran = true ∧ f.bits.continued = true) := by
    intro f hf
    rcases List.mem_append.mp hf with hf | hf
    · exact h.done f hf
    · rcases List.mem_cons.mp hf with rfl | hf
      · exact ⟨fortran_not_blank hcf, Or.inr ⟨hcf, by rw [makeContinued_bits]⟩⟩
      · exact ⟨(h.rest f ((List.takeWhile_prefix _).subset hf)).1, Or.inl (hskip f hf)⟩
  have hfl : fortranLines (s.done ++ s.cur.makeContinued :: s.rest.takeWhile (·.bits.comment)) =
      fortranLines s.done ++ [s.cur.makeContinued] := by
    unfold fortranLines at hskf ⊢
    rw [List.filter_append, List.filter_cons, hcf, if_pos rfl, hskf]
  have hlines : (fortranLines s.done ++ [s.cur.makeContinued]).map FileLine.main_txt = s.lines := by
    simp [Fmt.lines, (makeContinued_fields s.cur).1]
  have hleft := h.left
  unfold leftWidth at hleft
  have hsp := makeContinued_fields s.cur
  have hsplit := List.takeWhile_append_dropWhile (p := fun f : FileLine => f.bits.comment) (l := s.rest)
  unfold Fmt.continueFl
  dsimp only
  split
  · rename_i hd
    rw [hd, List.append_nil] at hsplit
    refine ⟨⟨rfl, hdone, by simp, ?_, ?_, ?_⟩, rfl, rfl, ?_, ?_, ?_, rfl, rfl⟩
    · simp [leftWidth, hsp.2.1, hsp.2.2, blanks]
      exact hleft
    · rw [← h.comments]
      conv => rhs; rw [← hsplit]
      simp [hcm, hcm']
    · rw [← h.trail]
      conv => rhs; rw [← hsplit]
      rw [trailings_append, trailings_mid, trailings_mid,
        trailings_single (makeContinued_trailing s.cur)]
      simp [trailings, trailing]
    · rw [hfl]; simp
    · rw [hfl]; exact hlines
    · exact hfl
  · rename_i g gs hd
    rw [hd] at hsplit
    have hg : g ∈ s.rest := by rw [← hsplit]; simp
    have hgc : g.bits.comment = false := by
      have := List.head_dropWhile_not (fun f : FileLine => f.bits.comment) (l := s.rest) (by rw [hd]; simp)
      simpa [hd] using this
    have hgf : g.isFortran = true := by
      rcases (h.rest g hg).2 with h' | h'
      · rw [hgc] at h'; simp at h'
      · exact h'
    have hub : (reuseLine g (s.cur.makeContinued.left_txt.length +
        s.cur.makeContinued.left_space.length + if s.done = [] then 2 else 0)).bits =
        { g.bits with continued := false } := by
      unfold reuseLine
      exact makeUncontinued_bits { g with left_txt := [] }
    refine ⟨⟨?_, hdone, ?_, ?_, ?_, ?_⟩, rfl, by rw [hub], ?_, ?_, ?_, rfl, rfl⟩
    · rw [isFortran_continued false g _ hub]; exact hgf
    · intro f hf
      exact h.rest f (by rw [← hsplit]; simp [hf])
    · simp [leftWidth, reuseLine, (makeUncontinued_fields { g with left_txt := [] }).2.1, hsp.2.1,
        hsp.2.2, blanks]
      exact hleft
    · rw [← h.comments]
      conv => rhs; rw [← hsplit]
      simp only [List.filter_append, List.filter_cons, hcm, hcm', hub, hgc]
      simp
    · rw [← h.trail]
      conv => rhs; rw [← hsplit]
      have htg : trailing (reuseLine g (s.cur.makeContinued.left_txt.length +
          s.cur.makeContinued.left_space.length + if s.done = [] then 2 else 0)) = trailing g :=
        makeUncontinued_trailing { g with left_txt := [] }
      rw [trailings_mid, trailings_mid, trailings_mid, trailings_append,
        trailings_single (makeContinued_trailing s.cur), trailings_single htg]
      have := trailings_mid [] g gs
      rw [List.nil_append] at this
      rw [this]
      simp [trailings]
    · rw [hfl]; simp
    · rw [hfl]; exact hlines
    · exact hfl

/-- Spreading a token over lines writes its text. -/
theorem splitGo_ok {L cm tr} (text : Str) (count : Nat) : ∀ (k : Nat) (i0 : Bool) (pos : Nat) (s : Fmt),
    FmtInv L cm tr s → s.cur.bits.continued = false → s.cur.main_txt = [] →
    (i0 = true → pos = 0 ∧ text.head? ≠ some '&') → (i0 = false → fortranLines s.done ≠ []) →
    pos + (k - 1) * count ≤ text.length →
    ∃ s', splitGo text count k i0 pos s = .ok s' ∧ FmtInv L cm tr s' ∧
      s'.cur.bits.continued = false ∧
      joinLines s'.lines = joinLines s.lines ++ (text.drop pos).take (k * count) ∧
      s'.maxLen = s.maxLen := by
  intro k
  induction k with
  | zero =>
    intro i0 pos s h hc hm _ _ _
    exact ⟨s, rfl, h, hc, by simp, rfl⟩
  | succ k ih =>
    intro i0 pos s h hc hm h0 h1 hlen
    have hpos : pos ≤ text.length := by omega
    have hline : joinLines ((fortranLines s.done).map FileLine.main_txt ++
        [s.cur.main_txt ++ (if i0 = true then [] else ['&']) ++ (text.drop pos).take count]) =
        joinLines s.lines ++ (text.drop pos).take count := by
      unfold Fmt.lines
      rw [hm]
      cases i0 with
      | true =>
        obtain ⟨rfl, hh⟩ := h0 rfl
        have : ((text.drop 0).take count).head? ≠ some '&' := by
          cases text with
          | nil => simp
          | cons c t =>
            cases count with
            | zero => simp
            | succ n => simpa using hh
        simpa using joinLines_extend (ms := (fortranLines s.done).map FileLine.main_txt) (m := []) this
      | false =>
        have hne : (fortranLines s.done).map FileLine.main_txt ≠ [] := by
          simpa using h1 rfl
        rw [joinLines_concat, joinLines_concat, if_neg hne, if_neg hne]
        simp [dropAmp]
    rw [splitGo]
    simp only [substr, if_pos hpos, Res.ok_bind]
    by_cases hk : k = 0
    · subst hk
      simp only [if_true]
      refine ⟨_, rfl, h.setMain _, hc, ?_, rfl⟩
      simpa [Fmt.lines] using hline
    · simp only [hk, if_false]
      generalize hcur : ({ s.cur with main_txt := s.cur.main_txt ++
        (if i0 = true then [] else ['&']) ++ (text.drop pos).take count } : FileLine) = cur
      have hinv : FmtInv L cm tr { s with cur := { cur.makeContinued with right_space := [] } } := by
        apply h.setCur
        · have : ({ cur.makeContinued with right_space := [] } : FileLine).isFortran =
              cur.makeContinued.isFortran := rfl
          rw [this, isFortran_continued true cur _ (makeContinued_bits cur), ← hcur]
          exact h.curFortran
        · simp only [leftWidth, (makeContinued_fields cur).2.1, (makeContinued_fields cur).2.2]
          rw [← hcur]
        · have : trailing ({ cur.makeContinued with right_space := [] } : FileLine) =
              trailing cur.makeContinued := rfl
          rw [this, makeContinued_trailing, ← hcur]
          rfl
      obtain ⟨i1, i2, i3, i4, i5, _, _, i8⟩ := continueFl_inv hinv
      obtain ⟨s', r1, r2, r3, r4, r5⟩ := ih false (pos + count) _ i1 i3 i2 (by simp) (fun _ => i4) (by
        have : (k + 1 - 1) * count = (k - 1) * count + count := by
          obtain ⟨j, rfl⟩ : ∃ j, k = j + 1 := ⟨k - 1, by omega⟩
          simp [Nat.succ_mul]
        omega)
      refine ⟨s', r1, r2, r3, ?_, by rw [r5, i8]⟩
      rw [r4]
      have hl : joinLines (Fmt.continueFl { s with cur := { cur.makeContinued with right_space := [] } }).lines
          = joinLines s.lines ++ (text.drop pos).take count := by
        rw [Fmt.lines, i2, joinLines_concat, i5]
        rw [if_neg (by simp [Fmt.lines])]
        rw [← hline]
        simp only [Fmt.lines, (makeContinued_fields cur).1]
        rw [← hcur]
        simp [dropAmp]
      rw [hl, List.append_assoc, ← List.drop_drop, ← List.take_add]
      congr 3
      rw [Nat.succ_mul]; omega

/-- A token that does not fit on a line. -/
theorem splitTok_ok {L cm tr} {s : Fmt} (t : Tok) (h : FmtInv L cm tr s)
    (hc : s.cur.bits.continued = false) (hm : s.cur.main_txt = [])
    (ht : t.text.head? ≠ some '&') (hpos : 0 < s.maxLen) :
    ∃ s', s.splitTok t = .ok s' ∧ FmtInv L cm tr s' ∧ s'.cur.bits.continued = false ∧
      joinLines s'.lines = joinLines s.lines ++ t.text ∧ s'.maxLen = s.maxLen ∧
      s'.start = false := by
  unfold Fmt.splitTok
  rw [if_neg (by omega)]
  dsimp only
  generalize ha : t.text.length / s.maxLen = a
  generalize hq : t.text.length / (a + 1) = q
  have hqm : q < s.maxLen := by
    have h1 : t.text.length < s.maxLen * (a + 1) := by
      rw [← ha]; exact Nat.lt_mul_div_succ _ hpos
    rw [← hq]
    rw [Nat.div_lt_iff_lt_mul (by omega)]
    exact h1
  have hbound : a * (q + 1) ≤ t.text.length := by
    have h1 : a * s.maxLen ≤ t.text.length := by rw [← ha]; exact Nat.div_mul_le_self _ _
    have h2 : a * (q + 1) ≤ a * s.maxLen := Nat.mul_le_mul_left _ (by omega)
    omega
  have hcover : t.text.length ≤ (a + 1) * (q + 1) := by
    have : t.text.length < (a + 1) * (q + 1) := by
      rw [← hq]; exact Nat.lt_mul_div_succ _ (by omega)
    omega
  obtain ⟨s', r1, r2, r3, r4, r5⟩ := splitGo_ok t.text (q + 1) (a + 1) true 0 s h hc hm
    (fun _ => ⟨rfl, ht⟩) (by simp) (by simpa using hbound)
  rw [r1]
  refine ⟨{ s' with start := false }, rfl, ⟨r2.curFortran, r2.done, r2.rest, r2.left, r2.comments,
    r2.trail⟩, r3, ?_, r5, rfl⟩
  have : ({ s' with start := false } : Fmt).lines = s'.lines := rfl
  rw [this, r4, List.drop_zero, List.take_of_length_le hcover]

end FLPR
