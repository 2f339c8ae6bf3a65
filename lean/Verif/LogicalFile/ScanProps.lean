import Verif.LogicalFile.ScanLemmas2
/-!
# Properties of the file scans (C06, C07, C46)
-/

namespace FLPR
open Spec

/-- `g` is `f`, or `f` forced to be a preprocessor line. -/
def SameLine (f g : FileLine) : Prop := g = f ∨ g = f.makePreprocessor

theorem sameLines_refl (fl : List FileLine) : List.Forall₂ SameLine fl fl := by
  induction fl with
  | nil => exact List.Forall₂.nil
  | cons g gs ih => exact List.Forall₂.cons (Or.inl rfl) ih

theorem sameLines_pre (fl : List FileLine) :
    List.Forall₂ SameLine fl (fl.map (·.makePreprocessor)) := by
  induction fl with
  | nil => exact List.Forall₂.nil
  | cons g gs ih => exact List.Forall₂.cons (Or.inr rfl) ih

theorem sameLines_append {a b c d : List FileLine} (h1 : List.Forall₂ SameLine a b)
    (h2 : List.Forall₂ SameLine c d) : List.Forall₂ SameLine (a ++ c) (b ++ d) := by
  induction h1 with
  | nil => exact h2
  | cons h hs ih => exact List.Forall₂.cons h ih

theorem directive_same {chunk rest : List FileLine} {g : Group} (h : DirectiveBlock chunk g rest) :
    List.Forall₂ SameLine chunk g.layout := by
  obtain ⟨f, cs, rfl, _, _, _, _, _, hg, _⟩ := h
  rw [hg]
  exact List.Forall₂.cons (Or.inl rfl) (sameLines_pre cs)

theorem freeChunk_same {chunk rest : List FileLine} {g : Group} (h : FreeChunk chunk g rest) :
    List.Forall₂ SameLine chunk g.layout := by
  rcases h with ⟨_, _, rfl⟩ | ⟨_, _, rfl⟩ | h | ⟨f, cs, _, _, rfl, _⟩
  · exact sameLines_refl _
  · exact sameLines_refl _
  · exact directive_same h
  · exact sameLines_refl _

theorem fixedChunk_same {chunk rest : List FileLine} {g : Group} (h : FixedChunk chunk g rest) :
    List.Forall₂ SameLine chunk g.layout := by
  rcases h with ⟨_, _, rfl⟩ | h | ⟨f, cs, _, _, rfl, _⟩
  · exact sameLines_refl _
  · exact directive_same h
  · exact sameLines_refl _

theorem cut_same {P : List FileLine → Group → List FileLine → Prop}
    (hP : ∀ chunk g rest, P chunk g rest → List.Forall₂ SameLine chunk g.layout)
    {fl : List FileLine} {gs : List Group} (h : Cut P fl gs) :
    List.Forall₂ SameLine fl (gs.flatMap (·.layout)) ∧ ∀ g ∈ gs, g.layout ≠ [] := by
  induction h with
  | nil => simp
  | cons h1 h2 h3 ih =>
    refine ⟨?_, ?_⟩
    · rw [List.flatMap_cons]; exact sameLines_append (hP _ _ _ h2) ih.1
    · intro x hx
      rcases List.mem_cons.mp hx with rfl | hx
      · intro he
        have := hP _ _ _ h2
        rw [he] at this
        cases this
        exact h1 rfl
      · exact ih.2 x hx

theorem sameLines_length {a b : List FileLine} (h : List.Forall₂ SameLine a b) :
    a.length = b.length := by
  induction h with
  | nil => rfl
  | cons h hs ih => simp [ih]

theorem sameLines_linenum {a b : List FileLine} (h : List.Forall₂ SameLine a b) :
    b.map (·.linenum) = a.map (·.linenum) := by
  induction h with
  | nil => rfl
  | cons h hs ih =>
    rcases h with rfl | rfl
    · simp [ih]
    · simp [ih, FileLine.makePreprocessor]

theorem sameLines_print {a b : List FileLine} (h : List.Forall₂ SameLine a b)
    (hf : ∀ f ∈ a, f.bits.fixed_format = false) : b.map (·.print) = a.map (·.print) := by
  induction h with
  | nil => rfl
  | cons h hs ih =>
    have i := ih (fun f hf' => hf f (by simp [hf']))
    rcases h with rfl | rfl
    · simp [i]
    · simp [i, C09_make_preprocessor_print_partial _ (Or.inl (hf _ (List.mem_cons_self ..)))]

theorem linenum_list {fl : List FileLine} {n : Nat} (hn : fl.length = n)
    (h : ∀ i (hi : i < fl.length), fl[i].linenum = ((1 + i : Nat) : Int)) :
    fl.map (·.linenum) = (List.range n).map (fun i => ((i + 1 : Nat) : Int)) := by
  apply List.ext_getElem
  · simp [hn]
  · intro i h1 h2
    simp only [List.getElem_map, List.getElem_range]
    rw [h i (by simpa using h1)]
    omega

/-! ## C46: the groups -/

/-- **C46** (free format: where logical lines begin and end) When the scan succeeds, the analysed
lines of the file are cut, in order and without loss, into blocks of trivial lines, blocks of
literal lines, directives with the lines that continue them, and statements. -/
theorem C46_free_groups (raws : List Str) (gs : List Group) (h : scanFree raws = .ok (some gs)) :
    ∃ fl, analyzeAllFree 1 NUL false false raws = .ok (some fl) ∧ Cut FreeChunk fl gs := by
  unfold scanFree at h
  rbind h with o ho
  cases o with
  | none => simp at h
  | some fl =>
    refine ⟨fl, ho, ?_⟩
    obtain ⟨_, _, h3⟩ := analyzeAllFree_ok validDelim_NUL ho
    obtain ⟨gs', h4, h5⟩ := groupLoop_spec (I := fun f => f.isFortran = false → LeftOnly f)
      (fun f fs hI => nextFree_spec (fs := fs) hI) fl.length fl (Nat.le_refl _)
      (fun f hf => (h3 f hf).2)
    simp [h4] at h
    subst h
    exact h5

/-- **C46** (fixed format: where logical lines begin and end) -/
theorem C46_fixed_groups (raws : List Str) (lastCol : Int) (gs : List Group)
    (h : scanFixed raws lastCol = .ok (some gs)) :
    ∃ fl, analyzeAllFixed lastCol 1 NUL raws = .ok (some fl) ∧ Cut FixedChunk fl gs := by
  unfold scanFixed at h
  rbind h with o ho
  cases o with
  | none => simp at h
  | some fl =>
    refine ⟨fl, ho, ?_⟩
    obtain ⟨_, _, h3, _⟩ := analyzeAllFixed_ok ho
    obtain ⟨gs', h4, h5⟩ := groupLoop_spec
      (I := fun f => f.bits.flpr_lit = false ∧ (f.isFortran = false → LeftOnly f))
      (fun f fs hI => nextFixed_spec (fs := fs) hI.2 hI.1) fl.length fl (Nat.le_refl _) h3
    simp [h4] at h
    subst h
    exact h5

/-- No directive or literal line comes between a continued line and the line that continues it. -/
def Spec.NoDirectiveInStatement (fl : List FileLine) : Prop :=
  ∀ a x ts y b, fl = a ++ x :: (ts ++ y :: b) → x.isFortran = true → x.bits.continued = true →
    (∀ t ∈ ts, t.isTrivial = true) → y.isFortran = true ∨ y.isTrivial = true

theorem homog_stmt (f : FileLine) (ts cs : List FileLine) (hf : f.isFortran = true)
    (hts : ∀ t ∈ ts, t.isTrivial = true)
    (hc : cs ≠ [] → f.bits.continued = true)
    (hd : ∀ x ∈ cs.dropLast, x.isTrivial = true ∨ x.bits.continued = true)
    (hno : ∀ a x us y b, f :: (ts ++ cs) = a ++ x :: (us ++ y :: b) → x.isFortran = true →
      x.bits.continued = true → (∀ t ∈ us, t.isTrivial = true) →
      y.isFortran = true ∨ y.isTrivial = true) :
    ∀ x ∈ cs, x.isFortran = true ∨ x.isTrivial = true := by
  induction cs generalizing f ts with
  | nil => simp
  | cons c cs ih =>
    have h1 := hno [] f ts c cs rfl hf (hc (by simp)) hts
    intro x hx
    rcases List.mem_cons.mp hx with rfl | hx
    · exact h1
    · have hcs : cs ≠ [] := List.ne_nil_of_mem hx
      have hdl : (c :: cs).dropLast = c :: cs.dropLast := by
        cases cs with
        | nil => exact absurd rfl hcs
        | cons d ds => rfl
      by_cases ht : c.isTrivial = true
      · refine ih f (ts ++ [c]) hf ?_ (fun _ => hc (by simp)) ?_ ?_ x hx
        · intro t h
          rcases List.mem_append.mp h with h | h
          · exact hts t h
          · simp at h; subst h; exact ht
        · intro y hy; exact hd y (by rw [hdl]; simp [hy])
        · intro a x us y b e; exact hno a x us y b (by simpa using e)
      · have hcf : c.isFortran = true := by
          rcases h1 with h | h
          · exact h
          · exact absurd h ht
        have hcc : c.bits.continued = true := by
          rcases hd c (by rw [hdl]; simp) with h | h
          · exact absurd h ht
          · exact h
        refine ih c [] hcf (by simp) (fun _ => hcc) ?_ ?_ x hx
        · intro y hy; exact hd y (by rw [hdl]; simp [hy])
        · intro a x us y b e
          refine hno (f :: (ts ++ a)) x us y b ?_
          simp at e
          simp [e]

/-- **C46** (homogeneous logical lines) Every logical line of a free-format file is one kind of
thing, provided no directive or literal line stands inside a continued statement.  Missing from the
full claim: that case, which has a counterexample below. -/
theorem C46_free_homogeneous_partial (raws : List Str) (gs : List Group) (fl : List FileLine)
    (h : scanFree raws = .ok (some gs))
    (hfl : analyzeAllFree 1 NUL false false raws = .ok (some fl))
    (hno : NoDirectiveInStatement fl) : ∀ g ∈ gs, Homogeneous g := by
  obtain ⟨fl', h1, h2⟩ := C46_free_groups raws gs h
  rw [hfl] at h1
  simp at h1
  subst h1
  clear h hfl
  induction h2 with
  | nil => simp
  | @cons chunk g rest gs hne hP hcut ih =>
    have hno' : NoDirectiveInStatement rest := by
      intro a x ts y b e
      exact hno (chunk ++ a) x ts y b (by simp [e])
    intro x hx
    rcases List.mem_cons.mp hx with rfl | hx
    · rcases hP with ⟨h1, _, rfl⟩ | ⟨h1, _, rfl⟩ | ⟨f, cs, _, _, _, h1, _, _, hg, _⟩ |
        ⟨f, cs, rfl, hf, rfl, h1⟩
      · exact Or.inl h1
      · exact Or.inr (Or.inl fun x hx => (h1 x hx).1)
      · refine Or.inr (Or.inr (Or.inl ?_))
        rw [hg]
        intro y hy
        rcases List.mem_cons.mp hy with rfl | hy
        · exact h1
        · obtain ⟨z, _, rfl⟩ := List.mem_map.mp hy
          exact Or.inl rfl
      · refine Or.inr (Or.inr (Or.inr ?_))
        intro y hy
        rcases List.mem_cons.mp hy with rfl | hy
        · exact Or.inl hf
        · rcases h1 with ⟨h1, h2⟩ | ⟨rfl, _⟩
          · have hcs : cs ≠ [] := List.ne_nil_of_mem hy
            have hdl : (f :: cs).dropLast = f :: cs.dropLast := by
              cases cs with
              | nil => exact absurd rfl hcs
              | cons d ds => rfl
            have hft : f.isTrivial = false := by
              unfold FileLine.isFortran at hf
              cases ht : f.isTrivial
              · rfl
              · simp [ht] at hf
            refine homog_stmt f [] cs hf (by simp) ?_ ?_ ?_ y hy
            · intro _
              rcases h1 f (by rw [hdl]; simp) with h | h
              · simp [hft] at h
              · exact h
            · intro z hz; exact h1 z (by rw [hdl]; simp [hz])
            · intro a x us z b e
              refine hno a x us z (b ++ rest) ?_
              rw [← List.nil_append cs, e]
              simp
          · simp at hy
    · exact ih hno' x hx

/-- A file that meets the hypotheses of `C46_free_homogeneous_partial`. -/
example : ∃ fl gs, analyzeAllFree 1 NUL false false
      ["#if A".toList, "x = &".toList, "! c".toList, "  1".toList] = .ok (some fl) ∧
    scanFree ["#if A".toList, "x = &".toList, "! c".toList, "  1".toList] = .ok (some gs) ∧
    gs.map (·.layout.length) = [1, 3] ∧ NoDirectiveInStatement fl := by
  refine ⟨_, _, rfl, rfl, by decide, ?_⟩
  intro a x ts y b e _ _ _
  have hy : y ∈ (a ++ x :: (ts ++ y :: b)).tail := by
    cases a <;> simp
  rw [← e] at hy
  revert hy y
  have : ∀ l : List FileLine, l.all (fun y => y.isFortran || y.isTrivial) = true →
      ∀ y ∈ l, y.isFortran = true ∨ y.isTrivial = true := by
    intro l h y hy
    simpa using List.all_eq_true.mp h y hy
  intro y e hy
  exact this _ (by decide) y hy

/-- A preprocessor line inside a continued statement becomes part of (and ends) the statement. -/
theorem C46_free_homogeneous_violation :
    ∃ g1 g2, scanFree ["x = &".toList, "#ifdef A".toList, "  1".toList] = .ok (some [g1, g2]) ∧
      g1.layout.map (·.print) = ["x = &".toList, "#ifdef A".toList] ∧ ¬ Homogeneous g1 := by
  refine ⟨_, _, rfl, by decide, ?_⟩
  intro h
  rcases h with h | h | h | h
  · exact absurd (h _ (List.mem_cons_self ..)) (by decide)
  · exact absurd (h _ (List.mem_cons_self ..)) (by decide)
  · exact absurd (h _ (List.mem_cons_self ..)) (by decide)
  · exact absurd (h _ (List.mem_cons_of_mem _ (List.mem_cons_self ..))) (by decide)

/-- **C46** (violation) A blank line inside a continued statement ends the continuation for the line behind it: a number at its
beginning is taken for a label and is no part of the statement any more. -/
theorem C46_violation_blank : ∃ f g h, scanFree ["y = f(1, &".toList, [], "   2)".toList] = .ok (some [{ layout := [f, g, h] }]) ∧
    h.bits.label = true ∧ h.main_txt = ")".toList := ⟨_, _, _, rfl, rfl, rfl⟩

/-- **C46** (violation) A comment between the two lines of a character string makes the file unreadable; without it the file is read. -/
theorem C46_violation_comment : scanFree ["y = 'a&".toList, "! c".toList, "&b'".toList] = .ok none ∧
    ∃ f g, scanFree ["y = 'a&".toList, "&b'".toList] = .ok (some [{ layout := [f, g] }]) := ⟨rfl, _, _, rfl⟩

/-- **C46** (fixed format) Every logical line of a fixed-format file is one kind of thing. -/
theorem C46_fixed_homogeneous (raws : List Str) (lastCol : Int) (gs : List Group)
    (h : scanFixed raws lastCol = .ok (some gs)) : ∀ g ∈ gs, Homogeneous g := by
  obtain ⟨fl, h1, h2⟩ := C46_fixed_groups raws lastCol gs h
  have hc := (analyzeAllFixed_ok h1).2.2.2
  clear h h1
  induction h2 with
  | nil => simp
  | @cons chunk g rest gs hne hP hcut ih =>
    intro x hx
    rcases List.mem_cons.mp hx with rfl | hx
    · rcases hP with ⟨h1, _, rfl⟩ | ⟨f, cs, _, _, _, h1, _, _, hg, _⟩ |
        ⟨f, cs, rfl, hf, rfl, h1, _⟩
      · exact Or.inl h1
      · refine Or.inr (Or.inr (Or.inl ?_))
        rw [hg]
        intro y hy
        rcases List.mem_cons.mp hy with rfl | hy
        · exact h1
        · obtain ⟨z, _, rfl⟩ := List.mem_map.mp hy
          exact Or.inl rfl
      · refine Or.inr (Or.inr (Or.inr ?_))
        intro y hy
        rcases List.mem_cons.mp hy with rfl | hy
        · exact Or.inl hf
        · rcases h1 y hy with h | h
          · exact hc y (by simp [hy]) h
          · exact Or.inr h
    · exact ih (fun y hy => hc y (by simp [hy])) x hx

/-! ## C06 -/

/-- **C06** When `scan_free` succeeds, the layouts of the logical lines, one after the other, have
one line for every input line, in order, numbered from one, that print as the input line; no
logical line is empty; and printing all of them reproduces the file. -/
theorem C06_scan_free (raws : List Str) (gs : List Group) (h : scanFree raws = .ok (some gs)) :
    (gs.flatMap (·.layout)).map (·.print) = raws ∧
    (gs.flatMap (·.layout)).map (·.linenum) =
      (List.range raws.length).map (fun i => ((i + 1 : Nat) : Int)) ∧
    (∀ g ∈ gs, g.layout ≠ []) ∧
    gs.flatMap Group.print = raws.flatMap (· ++ ['\n']) := by
  obtain ⟨fl, h1, h2⟩ := C46_free_groups raws gs h
  obtain ⟨e1, e2, e3⟩ := analyzeAllFree_ok validDelim_NUL h1
  obtain ⟨c1, c2⟩ := cut_same (fun _ _ _ => freeChunk_same) h2
  have hp := sameLines_print c1 (fun f hf => (e3 f hf).1)
  rw [e1] at hp
  refine ⟨hp, ?_, c2, ?_⟩
  · rw [sameLines_linenum c1]
    exact linenum_list (by rw [← e1]; simp) e2
  · have : ∀ l : List Group, l.flatMap Group.print =
        ((l.flatMap (·.layout)).map (·.print)).flatMap (· ++ ['\n']) := by
      intro l
      induction l with
      | nil => rfl
      | cons a l ih => simp only [List.flatMap_cons, ih, List.map_append, List.flatMap_append,
          Group.print, List.flatMap_map]
    rw [this, hp]

/-- **C06** (outcome) On ASCII text `scan_free` neither fails an assertion nor has undefined
behaviour, and if it does not succeed it reports failure. -/
theorem C06_scan_free_outcome (raws : List Str) (ha : ∀ r ∈ raws, AsciiStr r) :
    scanFree raws = .ok none ∨ ∃ gs, scanFree raws = .ok (some gs) := by
  obtain ⟨o, ho⟩ := analyzeAllFree_ascii (ln := 1) (pc := false) (lit := false)
    validDelim_NUL ha
  unfold scanFree
  rw [ho]
  cases o with
  | none => exact Or.inl rfl
  | some fl =>
    obtain ⟨_, _, h3⟩ := analyzeAllFree_ok validDelim_NUL ho
    obtain ⟨gs', h4, h5⟩ := groupLoop_spec (I := fun f => f.isFortran = false → LeftOnly f)
      (fun f fs hI => nextFree_spec (fs := fs) hI) fl.length fl (Nat.le_refl _)
      (fun f hf => (h3 f hf).2)
    right
    simp [h4]

example : (∃ gs, scanFree ["! c".toList, "x = & ! a".toList, "".toList, "  'it''s'".toList,
      "#if \\".toList, " y".toList] = .ok (some gs) ∧ gs.map (·.layout.length) = [1, 3, 2]) :=
  ⟨_, rfl, by decide⟩

/-- `scan_free` reports failure on an unterminated character constant. -/
example : scanFree ["x = 'abc".toList] = .ok none := rfl

/-! ## C07 -/

/-- **C07** When `scan_fixed` succeeds, the layouts of the logical lines, one after the other, have
one line for every input line, in order, numbered from one; every one is the analysed input line, or
that line forced to be a preprocessor line when it continues a directive; no logical line is
empty. -/
theorem C07_scan_fixed (raws : List Str) (lastCol : Int) (gs : List Group)
    (h : scanFixed raws lastCol = .ok (some gs)) :
    ∃ fl, analyzeAllFixed lastCol 1 NUL raws = .ok (some fl) ∧
    List.Forall₂ (fun f g => g = f ∨ g = f.makePreprocessor) fl (gs.flatMap (·.layout)) ∧
    (gs.flatMap (·.layout)).length = raws.length ∧
    (gs.flatMap (·.layout)).map (·.linenum) =
      (List.range raws.length).map (fun i => ((i + 1 : Nat) : Int)) ∧
    (∀ g ∈ gs, g.layout ≠ []) := by
  obtain ⟨fl, h1, h2⟩ := C46_fixed_groups raws lastCol gs h
  obtain ⟨e1, e2, e3, _⟩ := analyzeAllFixed_ok h1
  obtain ⟨c1, c2⟩ := cut_same (fun _ _ _ => fixedChunk_same) h2
  refine ⟨fl, h1, c1, ?_, ?_, c2⟩
  · rw [← sameLines_length c1, e1]
  · rw [sameLines_linenum c1]
    exact linenum_list e1 e2

/-- **C07** (outcome) -/
theorem C07_scan_fixed_outcome (raws : List Str) (lastCol : Int) (ha : ∀ r ∈ raws, AsciiStr r) :
    scanFixed raws lastCol = .ok none ∨ ∃ gs, scanFixed raws lastCol = .ok (some gs) := by
  obtain ⟨o, ho⟩ := analyzeAllFixed_ascii (lc := lastCol) (ln := 1) validDelim_NUL ha
  unfold scanFixed
  rw [ho]
  cases o with
  | none => exact Or.inl rfl
  | some fl =>
    obtain ⟨_, _, h3, _⟩ := analyzeAllFixed_ok ho
    obtain ⟨gs', h4, h5⟩ := groupLoop_spec
      (I := fun f => f.bits.flpr_lit = false ∧ (f.isFortran = false → LeftOnly f))
      (fun f fs hI => nextFixed_spec (fs := fs) hI.2 hI.1) fl.length fl (Nat.le_refl _) h3
    right
    simp [h4]

example : (∃ gs, scanFixed ["C c".toList, "      x = ".toList, "".toList, "     &  1".toList, "".toList,
      "#if \\".toList, " y".toList] 72 = .ok (some gs) ∧ gs.map (·.layout.length) = [1, 3, 1, 2]) :=
  ⟨_, rfl, by decide⟩

end FLPR
