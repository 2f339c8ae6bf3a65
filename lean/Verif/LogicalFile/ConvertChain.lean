import Verif.LogicalFile.ConvertReread
import Verif.LogicalFile.ScanProps
import Verif.LogicalFile.StmtSrc
/-!
# Reading a converted statement in free format
-/

namespace FLPR
open Spec

/-! ## The queue of lines that need an ampersand in front -/

theorem splitLines_spec {t : Tok} {s : Span} (hs : t.span = some s) (hle : s.bl ≤ s.el) :
    ∃ q, splitLines t = .ok q ∧ q.Pairwise (· < ·) ∧ ∀ i : Int, i ∈ q ↔ s.bl < i ∧ i ≤ s.el := by
  unfold splitLines
  rw [hs]
  dsimp only
  by_cases h : s.bl ≠ s.el
  · rw [if_pos h]
    refine ⟨_, rfl, ?_, ?_⟩
    · rw [List.pairwise_map]
      refine List.Pairwise.imp ?_ (List.pairwise_lt_range)
      intro a b hab
      omega
    · intro i
      simp only [List.mem_map, List.mem_range]
      constructor
      · rintro ⟨k, hk, rfl⟩; omega
      · rintro ⟨h1, h2⟩
        exact ⟨(i - s.bl - 1).toNat, by omega, by omega⟩
  · rw [if_neg h]
    refine ⟨[], rfl, by simp, ?_⟩
    intro i
    simp only [List.not_mem_nil, false_iff]
    omega

theorem frontLines_spec : ∀ (ts : List Tok), TokensInOrder ts →
    ∃ q, frontLines ts = .ok q ∧ q.Pairwise (· < ·) ∧
      ∀ i : Int, i ∈ q ↔ ∃ t ∈ ts, ∃ s, t.span = some s ∧ s.bl < i ∧ i ≤ s.el
  | [], _ => ⟨[], rfl, by simp, by simp⟩
  | t :: ts, ⟨h1, h2⟩ => by
    obtain ⟨s, hs, h0, hle⟩ := h1 t (by simp)
    rw [List.pairwise_cons] at h2
    obtain ⟨q1, e1, p1, m1⟩ := splitLines_spec hs hle
    obtain ⟨q2, e2, p2, m2⟩ := frontLines_spec ts ⟨fun u hu => h1 u (by simp [hu]), h2.2⟩
    refine ⟨q1 ++ q2, ?_, ?_, ?_⟩
    · simp [frontLines, e1, e2]
    · rw [List.pairwise_append]
      refine ⟨p1, p2, ?_⟩
      intro a ha b hb
      obtain ⟨_, ha2⟩ := (m1 a).mp ha
      obtain ⟨u, hu, v, hv, hb1, _⟩ := (m2 b).mp hb
      have := h2.1 u hu s v hs hv
      omega
    · intro i
      rw [List.mem_append, m1, m2]
      constructor
      · rintro (h | ⟨u, hu, h⟩)
        · exact ⟨t, by simp, s, hs, h⟩
        · exact ⟨u, by simp [hu], h⟩
      · rintro ⟨u, hu, v, hv, h⟩
        rcases List.mem_cons.mp hu with rfl | hu
        · rw [hs] at hv; simp at hv; subst hv; exact Or.inl h
        · exact Or.inr ⟨u, hu, v, hv, h⟩

/-- Taking line `i` off the queue. -/
theorem queue_step {q : List Int} {i : Nat} (hp : q.Pairwise (· < ·)) (hge : ∀ x ∈ q, (i : Int) ≤ x) :
    (((q.head? == some (i : Int)) = true) ↔ (i : Int) ∈ q) ∧
    (∀ q', q' = (if (q.head? == some (i : Int)) = true then q.tail else q) →
      q'.Pairwise (· < ·) ∧ (∀ x ∈ q', ((i + 1 : Nat) : Int) ≤ x) ∧
      ∀ j : Int, (i : Int) < j → (j ∈ q' ↔ j ∈ q)) := by
  cases q with
  | nil => simp
  | cons a q =>
    rw [List.pairwise_cons] at hp
    have ha := hge a (by simp)
    by_cases hai : a = (i : Int)
    · subst hai
      refine ⟨by simp, ?_⟩
      intro q' hq'
      simp at hq'
      subst hq'
      refine ⟨hp.2, ?_, ?_⟩
      · intro x hx
        have := hp.1 x hx
        push_cast; omega
      · intro j hj
        simp only [List.mem_cons]
        constructor
        · exact Or.inr
        · rintro (h | h)
          · omega
          · exact h
    · refine ⟨?_, ?_⟩
      · constructor
        · intro h; simp [hai] at h
        · intro h
          rcases List.mem_cons.mp h with h | h
          · exact absurd h.symm hai
          · have := hp.1 _ h
            omega
      · intro q' hq'
        simp [hai] at hq'
        subst hq'
        refine ⟨List.pairwise_cons.mpr hp, ?_, ?_⟩
        · intro x hx
          rcases List.mem_cons.mp hx with rfl | hx
          · push_cast; omega
          · have := hp.1 x hx
            push_cast; omega
        · intro j _; exact Iff.rfl

/-! ## One line of a statement -/

theorem rightTxt_tail {pd : Char} {f : FileLine} (hf : FixLine pd f) (hclosed : f.open_delim = NUL)
    (hamp : (body f.right_txt).head? ≠ some '&') :
    ∃ rs u, f.right_space ++ f.right_txt = rs ++ u ∧ LineTail f.main_txt f.open_delim false rs u := by
  rcases hf.right with h | ⟨w, c, t, h1, h2, h3⟩
  · refine ⟨f.right_space, [], by rw [h], ?_⟩
    exact ⟨fun h => ⟨hf.rs, hf.last h⟩, hf.rsOpen, by simp, fun _ => ⟨hclosed, Or.inl rfl⟩⟩
  · have hc : c = '!' := by
      rcases h3 with h3 | h3
      · exact h3
      · exfalso
        apply hamp
        rw [h1, (body_blanks (P := w) (M := c :: t) (fun x hx => blk_blank (h2 x hx)) rfl
          (by rw [h3]; rfl)).1, h3]
        rfl
    subst hc
    refine ⟨f.right_space ++ w, '!' :: t, by rw [h1, List.append_assoc], ?_⟩
    refine ⟨fun h => ⟨?_, hf.last h⟩, fun h => absurd hclosed h, by simp, fun _ => ⟨hclosed, Or.inr ⟨t, rfl⟩⟩⟩
    intro x hx
    rcases List.mem_append.mp hx with hx | hx
    · exact hf.rs x hx
    · exact h2 x hx

theorem convRight_tail {pd : Char} {f : FileLine} (hf : FixLine pd f)
    (hopen : f.open_delim ≠ NUL → f.right_txt = []) :
    LineTail f.main_txt f.open_delim true (convRight f).right_space (convRight f).right_txt ∧
    (convRight f).left_txt = f.left_txt ∧ (convRight f).left_space = f.left_space ∧
    (convRight f).main_txt = f.main_txt ∧ (convRight f).open_delim = f.open_delim ∧
    (convRight f).bits = { f.bits with continued := true } ∧
    AsciiStr ((convRight f).right_space ++ (convRight f).right_txt) := by
  have hrsA : AsciiStr f.right_space := by
    intro x hx
    rcases hf.rs x hx with rfl | rfl <;> rfl
  unfold convRight
  cases hr : f.right_txt with
  | nil =>
    refine ⟨⟨fun h => ⟨hf.rs, hf.last h⟩, hf.rsOpen, fun _ => ⟨[], rfl, fun _ => by simp⟩, by simp⟩,
      rfl, rfl, rfl, rfl, rfl, ?_⟩
    intro x hx
    rcases List.mem_append.mp hx with hx | hx
    · exact hrsA x hx
    · simp at hx; subst hx; rfl
  | cons c t =>
    have hn : f.open_delim = NUL := by
      by_contra h
      have := hopen h
      rw [hr] at this; simp at this
    have hsub : ∀ x ∈ (if f.open_delim = NUL ∧ f.right_space.length > 2 then f.right_space.drop 2
        else f.right_space), x ∈ f.right_space := by
      intro x hx
      split at hx
      · exact List.mem_of_mem_drop hx
      · exact hx
    refine ⟨⟨fun h => ⟨fun x hx => hf.rs x (hsub x hx), hf.last h⟩, fun h => absurd hn h,
      fun _ => ⟨_, rfl, fun h => absurd hn h⟩, by simp⟩, rfl, rfl, rfl, rfl, rfl, ?_⟩
    intro x hx
    rcases List.mem_append.mp hx with hx | hx
    · exact hrsA x (hsub x hx)
    · simp at hx
      rcases hx with rfl | rfl | hx
      · rfl
      · rfl
      · exact hf.asciiR x (by rw [hr]; simpa using hx)

/-- What the conversion leaves right of the statement text reads as the end of a free-format line. -/
theorem line_readable {pd : Char} {f f1 : FileLine} {cont : Bool} (hd : validDelim pd = true)
    (hf : FixLine pd f)
    (h1 : f1 = if cont = true then convRight f else f)
    (hamp : ∀ k, quoteState (ctxOf pd) (f.main_txt.take k) = none → f.main_txt[k]? ≠ some '&')
    (hopen : f.open_delim ≠ NUL → f.right_txt = [])
    (hlast : cont = false → f.open_delim = NUL ∧ (body f.right_txt).head? ≠ some '&') :
    ∃ rs u, f1.right_space ++ f1.right_txt = rs ++ u ∧
      Readable pd f.open_delim cont f.main_txt rs u ∧
      f1.left_txt = f.left_txt ∧ f1.left_space = f.left_space ∧ f1.main_txt = f.main_txt := by
  have hno : ∀ k, quoteState (ctxOf pd) (f.main_txt.take k) = none →
      f.main_txt[k]? ≠ some '!' ∧ f.main_txt[k]? ≠ some '&' := fun k hk => ⟨hf.noBang k hk, hamp k hk⟩
  cases cont with
  | true =>
    obtain ⟨t1, t2, t3, t4, t5, t6, t7⟩ := convRight_tail hf hopen
    simp at h1
    subst h1
    refine ⟨_, _, rfl, ⟨hd, hf.delim, hf.state, hno, t1, ?_⟩, t2, t3, t4⟩
    intro x hx
    rcases List.mem_append.mp hx with hx | hx
    · exact hf.asciiM x hx
    · exact t7 x hx
  | false =>
    obtain ⟨hc1, hc2⟩ := hlast rfl
    obtain ⟨rs, u, e1, e2⟩ := rightTxt_tail hf hc1 hc2
    simp at h1
    subst h1
    refine ⟨rs, u, e1, ⟨hd, hf.delim, hf.state, hno, e2, ?_⟩, rfl, rfl, rfl⟩
    intro x hx
    rcases List.mem_append.mp hx with hx | hx
    · exact hf.asciiM x hx
    · rw [← e1] at hx
      rcases List.mem_append.mp hx with hx | hx
      · rcases hf.rs x hx with rfl | rfl <;> rfl
      · exact hf.asciiR x hx

theorem print_free {f : FileLine} (h : f.bits.fixed_format = false) :
    f.print = (f.left_txt ++ f.left_space) ++ (f.main_txt ++ (f.right_space ++ f.right_txt)) := by
  unfold FileLine.print
  rw [if_neg (by simp [h])]
  simp

theorem fixLine_unfix {pd : Char} {f : FileLine} (h : FixLine pd f) : FixLine pd (unfix f) :=
  ⟨h.delim, h.notCont, h.main_ne, h.rs, h.last, h.rsOpen, h.state, h.noBang, h.right, h.asciiM, h.asciiR,
    h.left⟩

theorem isFortran_bits {b : Bits} (h : b.blank = false) (h2 : b.comment = false)
    (h3 : b.preprocessor = false) (h4 : b.flpr_pp = false) (h5 : b.flpr_lit = false)
    (h6 : b.incl = false) (f : FileLine) (hf : f.bits = b) : f.isFortran = true := by
  simp [FileLine.isFortran, FileLine.isTrivial, hf, h, h2, h3, h4, h5, h6]

theorem sameContent_fortran {f g : FileLine} (hf : f.isFortran = true) {a b c : Bool}
    (hg : g.bits = { continuation := a, label := b, continued := c })
    (hm : g.main_txt = f.main_txt) (hl : lineLabel g = lineLabel f) : SameContent f g := by
  have hg' : g.isFortran = true := isFortran_bits rfl rfl rfl rfl rfl rfl g hg
  have hx := hf
  simp only [FileLine.isFortran, FileLine.isTrivial, Bool.and_eq_true, Bool.not_eq_true',
    Bool.or_eq_false_iff] at hx
  obtain ⟨⟨⟨⟨⟨h1, h2⟩, h3⟩, h4⟩, h5⟩, h6⟩ := hx
  refine ⟨hm, hl, by rw [hf, hg'], ?_, ?_, ?_, ?_, ?_⟩ <;> rw [hg] <;> simp [h1, h2, h3, h4, h6]

/-- The first line of a statement. -/
theorem first_line {ln : Int} {f : FileLine} {cont : Bool} (hfix : f.bits.fixed_format = false)
    (hfo : f.isFortran = true)
    (hf : FixLine NUL f) (hcont : f.bits.continuation = false)
    (hamp : ∀ k, quoteState (ctxOf NUL) (f.main_txt.take k) = none → f.main_txt[k]? ≠ some '&')
    (hopen : f.open_delim ≠ NUL → f.right_txt = [])
    (hlast : cont = false → f.open_delim = NUL ∧ (body f.right_txt).head? ≠ some '&')
    (hdig : ∀ c ∈ f.main_txt.head?, isDigit c = false) :
    ∃ g, analyzeFree ln (convFirst (if cont = true then convRight f else f)).print NUL false false =
        .ok (g, false) ∧ SameContent f g ∧ g.open_delim = f.open_delim ∧ g.bits.continued = cont := by
  obtain ⟨rs, u, e1, e2, e3, e4, e5⟩ := line_readable validDelim_NUL hf rfl hamp hopen hlast
  generalize hf1 : (if cont = true then convRight f else f) = f1 at *
  have hfix1 : f1.bits.fixed_format = false := by
    rw [← hf1]
    split
    · unfold convRight; split <;> exact hfix
    · exact hfix
  have hpr : (convFirst f1).print =
      ((convFirst f1).left_txt ++ (convFirst f1).left_space) ++ (f.main_txt ++ (rs ++ u)) := by
    have : (convFirst f1).bits.fixed_format = false := by
      unfold convFirst; split <;> exact hfix1
    rw [print_free this]
    have h1 : (convFirst f1).main_txt = f1.main_txt ∧ (convFirst f1).right_space = f1.right_space ∧
        (convFirst f1).right_txt = f1.right_txt := by
      unfold convFirst; split <;> exact ⟨rfl, rfl, rfl⟩
    rw [h1.1, h1.2.1, h1.2.2, e5, e1]
  rcases hf.left with ⟨a1, a2, a3, a4, ⟨c, t, a5, a6⟩, a7⟩ | ⟨w, d, ds, a1, a2, a3, a4, a5, a6, a7, a8, a9⟩ |
      ⟨c, a1, a2, a3, a4, a5, a6, a7⟩
  · have hc : convFirst f1 = { f1 with left_space := blanks 6 ++ f1.left_space } := by
      unfold convFirst; rw [if_pos (by rw [e3, a1])]
    have hl : (convFirst f1).left_txt ++ (convFirst f1).left_space = blanks 6 ++ f.left_space := by
      rw [hc]; dsimp only; rw [e3, a1, e4]; rfl
    obtain ⟨g, g1, g2, g3, g4, g5⟩ := read_plain (ln := ln) (pc := false) (P := blanks 6 ++ f.left_space) e2
      (by
        intro x hx
        rcases List.mem_append.mp hx with hx | hx
        · left; exact (List.mem_replicate.mp hx).2
        · exact a4 x hx) (by simp [blanks]) a5 a6 rfl (fun _ => hdig c (by rw [a5]; rfl)) a7
    refine ⟨g, ?_, ?_, g4, by rw [g5]⟩
    · rw [hpr, hl]; exact g1
    · refine sameContent_fortran hfo (a := false) (b := false) (c := cont) g5 g2 ?_
      simp [lineLabel, g5, a2]
  · have hc : convFirst f1 = f1 := by
      unfold convFirst; rw [if_neg (by rw [e3, a1]; simp)]
    obtain ⟨c, t, b1, b2⟩ := a9 rfl
    obtain ⟨g, g1, g2, g3, g4, g5⟩ := read_label (ln := ln) e2 a2 a3 a4 (by rw [← a1]; exact a5) a8 b1 b2
      (hdig c (by rw [b1]; rfl))
    refine ⟨g, ?_, ?_, g4, by rw [g5]⟩
    · rw [hpr, hc, e3, e4, a1]; exact g1
    · refine sameContent_fortran hfo (a := false) (b := true) (c := cont) g5 g2 ?_
      simp only [lineLabel, g5, a6, g3, a1]
  · have h0 : c = '0' := by
      by_contra h
      have := a4.mpr h
      rw [hcont] at this; simp at this
    subst h0
    have hc : convFirst f1 = f1 := by
      unfold convFirst; rw [if_neg (by rw [e3, a1]; simp)]
    obtain ⟨c, t, b1, b2⟩ := a6 rfl
    obtain ⟨g, g1, g2, g3, g4, g5⟩ := read_label (ln := ln) (w := blanks 5) (d := '0') (ds := []) e2
      (by decide) (by decide) (by simp) (by decide) a5 b1 b2 (hdig c (by rw [b1]; rfl))
    refine ⟨g, ?_, ?_, g4, by rw [g5]⟩
    · rw [hpr, hc, e3, e4, a1]; exact g1
    · refine sameContent_fortran hfo (a := false) (b := true) (c := cont) g5 g2 ?_
      have hg0 : lineLabel g = 0 := by
        unfold lineLabel
        rw [g5, g3, if_pos rfl]
        decide
      rw [hg0]
      simp [lineLabel, a3]

/-- A later line of a statement. -/
theorem later_line {ln : Int} {pd : Char} {f : FileLine} {cont front : Bool}
    (hfix : f.bits.fixed_format = false) (hfo : f.isFortran = true) (hd : validDelim pd = true)
    (hf : FixLine pd f) (hcont : f.bits.continuation = true)
    (hamp : ∀ k, quoteState (ctxOf pd) (f.main_txt.take k) = none → f.main_txt[k]? ≠ some '&')
    (hopen : f.open_delim ≠ NUL → f.right_txt = [])
    (hlast : cont = false → f.open_delim = NUL ∧ (body f.right_txt).head? ≠ some '&')
    (hfront : front = true → f.left_space = [])
    (hnf : front = false → pd = NUL ∧ ¬ startsInclude f.main_txt) :
    ∃ f2 g, convLater front (if cont = true then convRight f else f) = .ok f2 ∧
      analyzeFree ln f2.print pd true false = .ok (g, false) ∧ SameContent f g ∧
      g.open_delim = f.open_delim ∧ g.bits.continued = cont := by
  obtain ⟨rs, u, e1, e2, e3, e4, e5⟩ := line_readable hd hf rfl hamp hopen hlast
  generalize hf1 : (if cont = true then convRight f else f) = f1 at *
  have hfix1 : f1.bits.fixed_format = false := by
    rw [← hf1]
    split
    · unfold convRight; split <;> exact hfix
    · exact hfix
  rcases hf.left with ⟨a1, a2, a3, _⟩ | ⟨w, d, ds, a1, a2, a3, a4, a5, a6, a7, _⟩ |
      ⟨c, a1, a2, a3, a4, a5, a6, a7⟩
  · rw [hcont] at a3; simp at a3
  · rw [hcont] at a7; simp at a7
  unfold convLater
  rw [if_neg (by rw [e3, a1]; simp [blanks])]
  cases front with
  | true =>
    rw [if_pos rfl]
    obtain ⟨g, g1, g2, g3, g4, g5⟩ := read_front (ln := ln) (pc := true) e2
    refine ⟨_, g, rfl, ?_, ?_, g4, by rw [g5]⟩
    · rw [print_free (by exact hfix1)]
      dsimp only
      have : f1.left_txt.take 5 = blanks 5 := by rw [e3, a1]; rfl
      rw [this, e4, hfront rfl, e5, e1, List.append_nil]
      exact g1
    · refine sameContent_fortran hfo (a := true) (b := false) (c := cont) g5 g2 ?_
      simp [lineLabel, g5, a3]
  | false =>
    obtain ⟨hn, hi⟩ := hnf rfl
    rw [if_neg (by simp), if_pos (by rw [e3, a1]; rfl)]
    obtain ⟨c', t, b1, b2⟩ := a6 hn
    obtain ⟨g, g1, g2, g3, g4, g5⟩ := read_plain (ln := ln) (pc := true) (P := blanks 6 ++ f.left_space) e2
      (by
        intro x hx
        rcases List.mem_append.mp hx with hx | hx
        · left; exact (List.mem_replicate.mp hx).2
        · exact a5 x hx) (by simp [blanks]) b1 b2 hn (by simp) hi
    refine ⟨_, g, rfl, ?_, ?_, g4, by rw [g5]⟩
    · rw [print_free (by exact hfix1)]
      dsimp only
      rw [e4, e5, e1, List.nil_append]
      exact g1
    · refine sameContent_fortran hfo (a := false) (b := false) (c := cont) g5 g2 ?_
      simp [lineLabel, g5, a3]

/-! ## A statement -/

/-- What the scan guarantees about the lines of a statement. -/
structure StmtLines (l : LLine) : Prop where
  lines : ∀ i f, l.layout[i]? = some f → FixLine (openBefore l.layout i) f
  cont : ∀ i f, 0 < i → l.layout[i]? = some f → f.bits.continuation = true

theorem openBefore_valid {l : LLine} (h : StmtLines l) : ∀ i, i ≤ l.layout.length →
    validDelim (openBefore l.layout i) = true
  | 0, _ => rfl
  | i + 1, hi => by
    have hlt : i < l.layout.length := by omega
    have := (h.lines i _ (List.getElem?_eq_getElem hlt)).delim
    simp [openBefore, List.getElem?_eq_getElem hlt, this]

theorem stmt_chain {l : LLine} (hs : StmtLines l) (hc : ConvertibleStmt l) :
    ∀ (fs : List FileLine) (i : Nat) (q : List Int), l.layout.drop i = fs → i ≤ l.layout.length →
    q.Pairwise (· < ·) → (∀ x ∈ q, ((max i 1 : Nat) : Int) ≤ x) →
    (∀ j : Nat, i ≤ j → ((j : Int) ∈ q ↔ SplitBefore l j)) →
    ∃ r, convStmt l.layout.length i i q (fs.map unfix) = .ok r ∧
      ∀ ln : Nat, ∃ gl, List.Forall₂ SameContent fs gl ∧ ∀ rest o,
        analyzeAllFree (ln + fs.length) NUL false false rest = .ok (some o) →
        analyzeAllFree ln (openBefore l.layout i) (decide (0 < i ∧ i < l.layout.length)) false
          (r.map FileLine.print ++ rest) = .ok (some (gl ++ o)) := by
  intro fs
  induction fs with
  | nil =>
    intro i q hdrop hi _ _ _
    have hlen : i = l.layout.length := by
      have := congrArg List.length hdrop
      simp at this; omega
    refine ⟨[], rfl, fun ln => ⟨[], .nil, ?_⟩⟩
    intro rest o ho
    have hod : openBefore l.layout i = NUL := by
      rw [hlen]
      cases hn : l.layout.length with
      | zero => rfl
      | succ n =>
        have hlt : n < l.layout.length := by omega
        have := (hc.closed l.layout[n] (by
          rw [List.getLast?_eq_getElem?, hn]
          simp [List.getElem?_eq_getElem hlt])).1
        simp [openBefore, List.getElem?_eq_getElem hlt, this]
    rw [hod, show decide (0 < i ∧ i < l.layout.length) = false by simp; omega]
    simpa using ho
  | cons f fs ih =>
    intro i q hdrop hi hp hge hmem
    have hlt : i < l.layout.length := by
      have := congrArg List.length hdrop
      simp at this; omega
    have hget : l.layout[i]? = some f := by
      rw [← List.head?_drop, hdrop]; rfl
    have hmemf : f ∈ l.layout := List.mem_of_getElem? hget
    have hdrop' : l.layout.drop (i + 1) = fs := by
      rw [← List.tail_drop, hdrop]; rfl
    have hfo : f.isFortran = true := hc.fortran f hmemf
    have hfo' : (unfix f).isFortran = true := hfo
    have hF := fixLine_unfix (hs.lines i f hget)
    have hnext : openBefore l.layout (i + 1) = f.open_delim := by simp [openBefore, hget]
    have hopen := hc.noTail f hmemf
    have hamp := hc.noAmp i f hget
    let cont := decide (i + 1 < l.layout.length)
    have hlast : cont = false → f.open_delim = NUL ∧ (body f.right_txt).head? ≠ some '&' := by
      intro hcf
      have hcf : ¬ (i + 1 < l.layout.length) := by simpa [cont] using hcf
      apply hc.closed f
      rw [List.getLast?_eq_getElem?, show l.layout.length - 1 = i by omega, hget]; rfl
    have hf1 : (if i + 1 < l.layout.length then convRight (unfix f) else unfix f) =
        (if cont = true then convRight (unfix f) else unfix f) := by
      simp [cont]
    have hpc : decide (0 < i + 1 ∧ i + 1 < l.layout.length) = cont := by simp [cont]
    by_cases hi0 : i = 0
    · subst hi0
      have hcont0 : f.bits.continuation = false := hc.first f (by
        rw [List.head?_eq_getElem?, hget]; rfl)
      obtain ⟨r, i1, i2⟩ := ih 1 q hdrop' (by omega) hp (by simpa using hge)
        (fun j hj => hmem j (by omega))
      refine ⟨convFirst (if cont = true then convRight (unfix f) else unfix f) :: r, ?_, ?_⟩
      · rw [List.map_cons]
        unfold convStmt
        rw [if_pos hfo']
        dsimp only
        rw [if_pos rfl, hf1, i1]
        rfl
      · intro ln
        obtain ⟨g, g1, g2, g3, g4⟩ := first_line (ln := ln) (f := unfix f) (cont := cont) rfl hfo' hF
          hcont0 hamp hopen hlast (hc.noDigit f (by rw [List.head?_eq_getElem?, hget]; rfl))
        obtain ⟨gl, j1, j2⟩ := i2 (ln + 1)
        refine ⟨g :: gl, .cons g2 j1, ?_⟩
        intro rest o ho
        rw [List.map_cons, List.cons_append]
        unfold analyzeAllFree
        rw [show openBefore l.layout 0 = NUL from rfl,
          show decide (0 < 0 ∧ 0 < l.layout.length) = false by simp, g1]
        dsimp only
        have := j2 rest o (by rw [← ho]; congr 1; simp; omega)
        rw [hnext, hpc] at this
        rw [g3, g4, show (unfix f).open_delim = f.open_delim from rfl, this]
        rfl
    · have hge' : ∀ x ∈ q, (i : Int) ≤ x := by
        intro x hx
        have := hge x hx
        rw [show max i 1 = i by omega] at this
        exact this
      obtain ⟨k1, k2⟩ := queue_step hp hge'
      obtain ⟨p1, p2, p3⟩ := k2 _ rfl
      have hsplit := hmem i (Nat.le_refl i)
      obtain ⟨r, i1, i2⟩ := ih (i + 1) _ hdrop' (by omega) p1
        (by rw [show max (i + 1) 1 = i + 1 by omega]; exact p2)
        (fun j hj => by rw [p3 j (by omega)]; exact hmem j (by omega))
      have hline := fun ln : Int => later_line (ln := ln) (pd := openBefore l.layout i) (f := unfix f)
        (cont := cont) (front := q.head? == some (i : Int)) rfl hfo' (openBefore_valid hs i hi) hF
        (hs.cont i f (by omega) hget) hamp hopen hlast
        (fun hfr => hc.noSpace i f hget (hsplit.mp (k1.mp hfr)))
        (fun hfr => by
          have hns : ¬ SplitBefore l i := by
            intro hx
            have := k1.mpr (hsplit.mpr hx)
            rw [hfr] at this; simp at this
          refine ⟨?_, hc.noIncl i f (by omega) hget hns⟩
          by_contra hx
          exact hns (hc.strings i (by omega) hlt hx))
      obtain ⟨f2, _, hcl, _⟩ := hline 0
      refine ⟨f2 :: r, ?_, ?_⟩
      · rw [List.map_cons]
        unfold convStmt
        rw [if_pos hfo']
        dsimp only
        rw [if_neg hi0, hf1, hcl]
        simp only [Res.ok_bind]
        rw [i1]
        rfl
      · intro ln
        obtain ⟨f2', g, hcl', g1, g2, g3, g4⟩ := hline ln
        rw [hcl] at hcl'
        simp only [Except.ok.injEq] at hcl'
        subst hcl'
        obtain ⟨gl, j1, j2⟩ := i2 (ln + 1)
        refine ⟨g :: gl, .cons g2 j1, ?_⟩
        intro rest o ho
        rw [List.map_cons, List.cons_append]
        unfold analyzeAllFree
        rw [show decide (0 < i ∧ i < l.layout.length) = true by simp; omega, g1]
        dsimp only
        have := j2 rest o (by rw [← ho]; congr 1; simp; omega)
        rw [hnext, hpc] at this
        rw [g3, g4, show (unfix f).open_delim = f.open_delim from rfl, this]
        rfl

end FLPR
