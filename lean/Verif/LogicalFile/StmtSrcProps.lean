import Verif.LogicalFile.StmtSrc
import Verif.LogicalFile.ScanProps
import Verif.LogicalLine.TokProps
/-!
# Statement extraction (C19) and the statement source (C50)
-/

namespace FLPR

namespace Spec

/-- The lines with statements are neither suppressed nor macros. -/
def PlainLines (lines : List LLine) : Prop :=
  ∀ l ∈ lines, l.stmts ≠ [] → l.suppress = false ∧ l.cat ≠ .macro

/-- Line `j` has no statements. -/
def NoStmts (lines : List LLine) (j : Nat) : Bool :=
  match lines[j]? with
  | some l => l.stmts.isEmpty
  | none => false

/-- Line `j` is output. -/
def Shows (lines : List LLine) (j : Nat) : Bool :=
  match lines[j]? with
  | some l => !l.suppress
  | none => false

/-- The positions of the lines in front of line `i`, back to the previous line that has statements,
that are output. -/
def prefixOf (lines : List LLine) (i : Nat) : List Nat :=
  (List.range i).filter (fun j => Shows lines j &&
    (List.range i).all (fun m => decide (m < j) || NoStmts lines m))

/-- The statements that the lines hold. -/
def stmtsOf (lines : List LLine) : List LLStmt :=
  lines.zipIdx.flatMap (fun li => li.1.stmts.zipIdx.map (fun rj =>
    { line := some li.2, range := some rj.1
      label := if rj.2 = 0 then li.1.label else 0
      compound := if li.1.stmts.length = 1 then 0 else rj.2 + 1
      pre := if rj.2 = 0 then prefixOf lines li.2 else [] }))

end Spec
open Spec

/-! ## The statements as a function of the lines -/

/-- The statements of the lines `ls`, the first of which has position `i`, when `pre` are the lines
waiting for a statement. -/
def stmtsFrom (pre : List Nat) : Nat → List LLine → List LLStmt
  | _, [] => []
  | i, l :: ls =>
    if l.stmts = [] then stmtsFrom (if l.suppress then pre else pre ++ [i]) (i + 1) ls
    else lineStmts i l.label (if l.stmts.length > 1 then 1 else 0) pre l.stmts ++
      stmtsFrom [] (i + 1) ls

theorem skipPrefix_spec (pre : List Nat) (i : Nat) (ls : List LLine) :
    i ≤ (skipPrefix i ls).2 ∧
    ((skipPrefix i ls).2 = i + ls.length ∧ stmtsFrom pre i ls = [] ∨
    ∃ l rest, ls.drop ((skipPrefix i ls).2 - i) = l :: rest ∧ l.stmts ≠ [] ∧
      stmtsFrom pre i ls = lineStmts (skipPrefix i ls).2 l.label
        (if l.stmts.length > 1 then 1 else 0) (pre ++ (skipPrefix i ls).1) l.stmts ++
        stmtsFrom [] ((skipPrefix i ls).2 + 1) rest) := by
  induction ls generalizing pre i with
  | nil => simp [skipPrefix, stmtsFrom]
  | cons l ls ih =>
    by_cases h : l.stmts = []
    · have e : skipPrefix i (l :: ls) = ((if l.suppress then (skipPrefix (i + 1) ls).1 else
          i :: (skipPrefix (i + 1) ls).1), (skipPrefix (i + 1) ls).2) := by
        simp [skipPrefix, h]
      have e2 : stmtsFrom pre i (l :: ls) =
          stmtsFrom (if l.suppress then pre else pre ++ [i]) (i + 1) ls := by
        simp [stmtsFrom, h]
      obtain ⟨h1, h2⟩ := ih (if l.suppress then pre else pre ++ [i]) (i + 1)
      rw [e, e2]
      dsimp only
      refine ⟨by omega, ?_⟩
      rcases h2 with ⟨h3, h4⟩ | ⟨l', rest, h3, h4, h5⟩
      · left
        exact ⟨by rw [h3, List.length_cons]; omega, h4⟩
      · right
        refine ⟨l', rest, ?_, h4, ?_⟩
        · rw [show (skipPrefix (i + 1) ls).2 - i = ((skipPrefix (i + 1) ls).2 - (i + 1)) + 1 by omega,
            List.drop_succ_cons]
          exact h3
        · rw [h5]
          congr 2
          by_cases hs : l.suppress = true <;> simp [hs]
    · refine ⟨by simp [skipPrefix, h], Or.inr ⟨l, ls, by simp [skipPrefix, h], h, ?_⟩⟩
      simp [skipPrefix, stmtsFrom, h]

theorem lineStmts_ne (i : Nat) (a b : Int) (pre : List Nat) (rs : List (Nat × Nat)) (h : rs ≠ []) :
    lineStmts i a b pre rs ≠ [] := by
  cases rs with
  | nil => exact absurd rfl h
  | cons r rs => simp [lineStmts]

/-- What is still to come. -/
def StmtSrc.rest (lines : List LLine) (s : StmtSrc) : List LLStmt :=
  s.buf.drop (s.curr + 1) ++ stmtsFrom [] s.it (lines.drop s.it)

/-- States that occur. -/
def StmtSrc.Inv (lines : List LLine) (s : StmtSrc) : Prop :=
  s.it ≤ lines.length ∧ s.curr ≤ s.buf.length ∧ (s.curr = s.buf.length → s.buf = [])

theorem refill_spec (lines : List LLine) (hw : PlainLines lines) (s : StmtSrc)
    (hs : s.it < lines.length) :
    ∃ s', s.refill lines = .ok s' ∧ s'.Inv lines ∧ s'.curr = 0 ∧
      s'.buf ++ stmtsFrom [] s'.it (lines.drop s'.it) = stmtsFrom [] s.it (lines.drop s.it) ∧
      (s'.buf = [] → s'.it = lines.length) := by
  obtain ⟨h1, h2⟩ := skipPrefix_spec [] s.it (lines.drop s.it)
  unfold StmtSrc.refill
  generalize hp : skipPrefix s.it (lines.drop s.it) = p at *
  rcases h2 with ⟨h3, h4⟩ | ⟨l, rest, h3, h4, h5⟩
  · rw [List.length_drop] at h3
    have : p.2 = lines.length := by omega
    dsimp only
    rw [List.getElem?_eq_none (by omega)]
    refine ⟨_, rfl, ⟨by dsimp only; omega, by simp, by simp⟩, rfl, ?_, fun _ => this⟩
    rw [h4, this]
    simp [stmtsFrom]
  · rw [List.drop_drop, show s.it + (p.2 - s.it) = p.2 by omega] at h3
    have hl : lines[p.2]? = some l := by
      rw [← List.head?_drop, h3]; rfl
    obtain ⟨w1, w2⟩ := hw l (List.mem_of_getElem? hl) h4
    have hlt := (List.getElem?_eq_some_iff.mp hl).1
    have hr : lines.drop (p.2 + 1) = rest := by
      rw [← List.tail_drop, h3]; rfl
    dsimp only
    rw [hl]
    dsimp only
    rw [w1, if_neg (by simp), if_neg w2]
    have hne := lineStmts_ne p.2 l.label (if l.stmts.length > 1 then 1 else 0) p.1 l.stmts h4
    refine ⟨_, rfl, ⟨by dsimp only; omega, by simp, ?_⟩, rfl, ?_, fun h => absurd h hne⟩
    · intro h
      exact List.eq_nil_of_length_eq_zero (by dsimp only at h ⊢; omega)
    · dsimp only
      rw [hr, h5]
      rfl

theorem moreAvail_spec (lines : List LLine) (hw : PlainLines lines) (s : StmtSrc)
    (hs : s.it ≤ lines.length) (hb : s.buf = []) (hc : s.curr = 0) :
    ∃ s', s.moreAvail lines = .ok (s', !(stmtsFrom [] s.it (lines.drop s.it)).isEmpty) ∧
      s'.Inv lines ∧ s'.curr = 0 ∧
      s'.buf ++ stmtsFrom [] s'.it (lines.drop s'.it) = stmtsFrom [] s.it (lines.drop s.it) ∧
      (s'.buf = [] → s'.it = lines.length) := by
  unfold StmtSrc.moreAvail
  by_cases hlt : s.it < lines.length
  · obtain ⟨k, hk⟩ : ∃ k, lines.length - s.it = k + 1 := ⟨lines.length - s.it - 1, by omega⟩
    obtain ⟨s', h1, h2, h3, h4, h5⟩ := refill_spec lines hw s hlt
    have hgo : s.moreAvailGo lines (lines.length - s.it) = .ok s' := by
      rw [hk]
      simp only [StmtSrc.moreAvailGo, hb, hlt, and_self, if_true, h1, Res.ok_bind]
      cases k with
      | zero => rfl
      | succ k =>
        simp only [StmtSrc.moreAvailGo]
        rw [if_neg]
        rintro ⟨h6, h7⟩
        have := h5 h6
        omega
    rw [hgo, Res.ok_bind]
    refine ⟨s', ?_, h2, h3, h4, h5⟩
    congr 2
    rw [← h4]
    by_cases hbuf : s'.buf = []
    · rw [hbuf, h5 hbuf]
      simp [stmtsFrom]
    · cases hb' : s'.buf with
      | nil => exact absurd hb' hbuf
      | cons x xs => rfl
  · have he : s.it = lines.length := by omega
    have hgo : s.moreAvailGo lines (lines.length - s.it) = .ok s := by
      rw [he, Nat.sub_self]; rfl
    rw [hgo, Res.ok_bind]
    refine ⟨s, ?_, ⟨hs, by omega, fun _ => hb⟩, hc, by simp [hb], fun _ => he⟩
    rw [hb, he]
    simp [stmtsFrom]

/-- `advance`: delivers the next statement if there is one. -/
theorem advance_spec (lines : List LLine) (hw : PlainLines lines) (s : StmtSrc)
    (hi : s.Inv lines) :
    ∃ s', s'.Inv lines ∧
      match s.rest lines with
      | [] => s.advance lines = .ok (s', false) ∧ s'.rest lines = [] ∧ s'.buf = []
      | x :: xs => s.advance lines = .ok (s', true) ∧ s'.current = .ok x ∧ s'.rest lines = xs := by
  obtain ⟨i1, i2, i3⟩ := hi
  unfold StmtSrc.advance
  generalize hc : (if s.curr ≠ s.buf.length then s.curr + 1 else s.curr) = c
  dsimp only
  by_cases hend : c = s.buf.length
  · have hdrop : s.buf.drop (s.curr + 1) = [] := by
      apply List.drop_of_length_le
      split_ifs at hc <;> omega
    rw [if_pos hend]
    obtain ⟨s', h1, h2, h3, h4, h5⟩ := moreAvail_spec lines hw ⟨s.it, [], 0⟩ i1 rfl rfl
    dsimp only at h1 h4
    refine ⟨s', h2, ?_⟩
    have hrest : s.rest lines = s'.buf ++ stmtsFrom [] s'.it (lines.drop s'.it) := by
      rw [h4]; simp [StmtSrc.rest, hdrop]
    rw [h1, hrest, ← h4]
    cases hb : s'.buf with
    | nil =>
      have := h5 hb
      rw [this]
      simp [StmtSrc.rest, hb, this, stmtsFrom]
    | cons x xs =>
      simp [StmtSrc.rest, StmtSrc.current, hb, h3]
  · rw [if_neg hend]
    have hne : s.curr ≠ s.buf.length := by
      intro h
      rw [if_neg (by simp [h])] at hc
      omega
    rw [if_pos hne] at hc
    subst hc
    have hlt : s.curr + 1 < s.buf.length := by omega
    refine ⟨{ s with curr := s.curr + 1 }, ⟨i1, by dsimp only; omega, fun h => absurd h hend⟩, ?_⟩
    have hd : s.buf.drop (s.curr + 1) = s.buf[s.curr + 1] :: s.buf.drop (s.curr + 1 + 1) :=
      (List.getElem_cons_drop (h := hlt)).symm
    have hr : s.rest lines = s.buf[s.curr + 1] ::
        StmtSrc.rest lines { s with curr := s.curr + 1 } := by
      rw [StmtSrc.rest, hd]; rfl
    rw [hr]
    refine ⟨rfl, ?_, rfl⟩
    simp [StmtSrc.current, List.getElem?_eq_getElem hlt]

theorem makeStmtsGo_spec (lines : List LLine) (hw : PlainLines lines) (n : Nat) (s : StmtSrc)
    (hi : s.Inv lines) (hn : (s.rest lines).length < n) :
    makeStmtsGo lines n s = .ok (some (s.rest lines)) := by
  induction n generalizing s with
  | zero => omega
  | succ n ih =>
    obtain ⟨s', h1, h2⟩ := advance_spec lines hw s hi
    cases hr : s.rest lines with
    | nil =>
      rw [hr] at h2
      simp [makeStmtsGo, h2.1]
    | cons x xs =>
      rw [hr] at h2 hn
      obtain ⟨h3, h4, h5⟩ := h2
      have := ih s' h1 (by rw [h5]; simp at hn; omega)
      simp only [makeStmtsGo, h3, Res.ok_bind, if_true, h4, this, h5]
      rfl

theorem lineStmts_length (i : Nat) (a b : Int) (pre : List Nat) (rs : List (Nat × Nat)) :
    (lineStmts i a b pre rs).length = rs.length := by
  induction rs generalizing a b pre with
  | nil => rfl
  | cons r rs ih => simp [lineStmts, ih]

theorem stmtsFrom_length (pre : List Nat) (i : Nat) (ls : List LLine) :
    (stmtsFrom pre i ls).length ≤ (ls.map (fun l => l.stmts.length + 1)).sum := by
  induction ls generalizing pre i with
  | nil => simp [stmtsFrom]
  | cons l ls ih =>
    unfold stmtsFrom
    split
    · have := ih (if l.suppress then pre else pre ++ [i]) (i + 1)
      simp only [List.map_cons, List.sum_cons]
      omega
    · have := ih [] (i + 1)
      simp only [List.map_cons, List.sum_cons, List.length_append, lineStmts_length]
      omega

theorem makeStmts_eq (lines : List LLine) (hw : PlainLines lines) :
    makeStmts lines = .ok (some (stmtsFrom [] 0 lines)) := by
  have h := makeStmtsGo_spec lines hw (stmtFuel lines) {} ⟨by simp, by simp, by simp⟩ (by
    have := stmtsFrom_length [] 0 lines
    simp [StmtSrc.rest, stmtFuel]
    omega)
  unfold makeStmts
  rw [h]
  simp [StmtSrc.rest]

/-! ## The declarative form -/

theorem prefixOf_succ (lines : List LLine) (i : Nat) :
    prefixOf lines (i + 1) =
      if NoStmts lines i then prefixOf lines i ++ (if Shows lines i then [i] else []) else [] := by
  unfold prefixOf
  rw [List.range_succ, List.filter_append]
  have h1 : (List.range i).filter (fun j => Shows lines j &&
      (List.range i ++ [i]).all (fun m => decide (m < j) || NoStmts lines m)) =
      (List.range i).filter (fun j => (Shows lines j &&
      (List.range i).all (fun m => decide (m < j) || NoStmts lines m)) && NoStmts lines i) := by
    apply List.filter_congr
    intro j hj
    have : decide (i < j) = false := by
      have := List.mem_range.mp hj
      exact decide_eq_false (by omega)
    simp only [List.all_append, List.all_cons, List.all_nil, this, Bool.false_or, Bool.and_true,
      Bool.and_assoc]
  have h2 : (List.range i ++ [i]).all (fun m => decide (m < i) || NoStmts lines m) =
      NoStmts lines i := by
    rw [List.all_append]
    have : (List.range i).all (fun m => decide (m < i) || NoStmts lines m) = true := by
      rw [List.all_eq_true]
      intro m hm
      simp [List.mem_range.mp hm]
    rw [this]
    simp
  rw [h1]
  simp only [List.filter_cons, List.filter_nil, h2]
  cases hn : NoStmts lines i
  · simp
  · cases hs : Shows lines i <;> simp

theorem lineStmts_map (i : Nat) (a b : Int) (pre : List Nat) (rs : List (Nat × Nat)) (k : Nat)
    (hk : 0 < k) (hb : b = k + 1) (n : Nat) (hn : n ≠ 1) :
    lineStmts i 0 b [] rs = (rs.zipIdx k).map (fun rj =>
      { line := some i, range := some rj.1
        label := if rj.2 = 0 then a else 0
        compound := if n = 1 then 0 else rj.2 + 1
        pre := if rj.2 = 0 then pre else [] }) := by
  induction rs generalizing b k with
  | nil => rfl
  | cons r rs ih =>
    rw [lineStmts, List.zipIdx_cons, List.map_cons, ih (b + 1) (k + 1) (by omega) (by omega)]
    dsimp only
    rw [if_neg (show ¬ k = 0 by omega), if_neg (show ¬ k = 0 by omega), if_neg hn, hb]

theorem lineStmts_eq (i : Nat) (a : Int) (pre : List Nat) (rs : List (Nat × Nat)) :
    lineStmts i a (if rs.length > 1 then 1 else 0) pre rs = rs.zipIdx.map (fun rj =>
      { line := some i, range := some rj.1
        label := if rj.2 = 0 then a else 0
        compound := if rs.length = 1 then 0 else rj.2 + 1
        pre := if rj.2 = 0 then pre else [] }) := by
  match rs with
  | [] => rfl
  | [r] => rfl
  | r :: r' :: rs =>
    rw [List.zipIdx_cons, List.map_cons, lineStmts,
      lineStmts_map i a _ pre (r' :: rs) (0 + 1) (by omega) (by simp)
        ((r :: r' :: rs).length) (by simp)]
    simp

theorem stmtsFrom_eq (lines : List LLine) (i : Nat) (ls : List LLine) (h : lines.drop i = ls) :
    stmtsFrom (prefixOf lines i) i ls =
      (ls.zipIdx i).flatMap (fun li => li.1.stmts.zipIdx.map (fun rj =>
    { line := some li.2, range := some rj.1
      label := if rj.2 = 0 then li.1.label else 0
      compound := if li.1.stmts.length = 1 then 0 else rj.2 + 1
      pre := if rj.2 = 0 then prefixOf lines li.2 else [] })) := by
  induction ls generalizing i with
  | nil => rfl
  | cons l ls ih =>
    have hl : lines[i]? = some l := by rw [← List.head?_drop, h]; rfl
    have hd : lines.drop (i + 1) = ls := by rw [← List.tail_drop, h]; rfl
    have ih' := ih (i + 1) hd
    rw [prefixOf_succ] at ih'
    rw [List.zipIdx_cons, List.flatMap_cons]
    unfold stmtsFrom
    by_cases hs : l.stmts = []
    · rw [if_pos hs, hs]
      rw [if_pos (by simp [NoStmts, hl, hs])] at ih'
      rw [List.zipIdx_nil, List.map_nil, List.nil_append, ← ih']
      congr 1
      simp only [Shows, hl]
      cases l.suppress <;> simp
    · rw [if_neg hs]
      rw [if_neg (by simp [NoStmts, hl, hs])] at ih'
      rw [ih', lineStmts_eq]

/-! ## C19 -/

/-- **C19.**  The statements of a file are exactly the statements of its lines, in order.  Each one is
bound to its line and token range.  Only the first statement of a line has the label of the line and
the prefix: the lines that are output, back to the previous line with statements.  A statement is
number 0 of its line when it is alone there, otherwise it is number 1, 2, ...  Missing: lines with
statements that are suppressed or macros (see the violations). -/
theorem C19_stmts_partial (lines : List LLine) (hw : PlainLines lines) :
    makeStmts lines = .ok (some (stmtsOf lines)) := by
  rw [makeStmts_eq lines hw]
  have h := stmtsFrom_eq lines 0 lines rfl
  have h0 : prefixOf lines 0 = [] := rfl
  rw [h0] at h
  rw [h]
  rfl

/-- A line without text gives no statements. -/
theorem build_no_text (st : Flex.State) (g : Group) (l : LLine) (st' : Flex.State)
    (hm : ∀ f ∈ g.layout, f.left_space = [] ∧ f.main_txt = [] ∧ f.right_space = [])
    (h : buildLine st g = .ok (l, st')) : l.stmts = [] := by
  unfold buildLine at h
  rbind h with r hr
  obtain ⟨lab, ht⟩ := initFromLayout_eq st _ r.1 r.2 hr
  have hacc : (accumAll ((codeLines g.layout).map pieceOf)).accum = [] := by
    rw [(accumAll_fields _).1]
    have : ∀ (b : Bool) (fs : List FileLine), (∀ f ∈ fs, f.left_space = [] ∧ f.main_txt = [] ∧
        f.right_space = []) → joined b (fs.map pieceOf) = [] := by
      intro b fs
      induction fs generalizing b with
      | nil => intro _; rfl
      | cons f fs ih =>
        intro hf
        obtain ⟨h1, h2, h3⟩ := hf f (by simp)
        rw [List.map_cons, joined, ih _ (fun x hx => hf x (by simp [hx]))]
        simp [leadBlank, trailBlank, pieceOf, h1, h2, h3]
    exact this _ _ (fun f hf => hm f (List.mem_filter.mp hf).1)
  unfold LLine.tokenize at ht
  dsimp only at ht
  rw [hacc] at ht
  have hscan : Flex.scan st [] = .ok ([], st) := rfl
  rw [hscan] at ht
  simp only [Res.ok_bind, lineTokensGo] at ht
  have e1 := congrArg (fun x => match x with | .ok (y, _) => some y | .error _ => none) ht
  have e2 := congrArg (fun x => match x with | .ok (y, _) => some y | .error _ => none) h
  simp only [Option.some.injEq] at e1 e2
  rw [← e2, ← e1]
  rfl

theorem buildLine_plain (st : Flex.State) (g : Group) (l : LLine) (st' : Flex.State)
    (h : buildLine st g = .ok (l, st')) : l.suppress = false ∧ l.cat = g.cat ∧
      l.layout = g.layout := by
  unfold buildLine at h
  rbind h with r hr
  obtain ⟨lab, ht⟩ := initFromLayout_eq st _ r.1 r.2 hr
  unfold LLine.tokenize at ht
  rbind ht with a ha
  rbind ht with b hb
  have e1 := congrArg (fun x => match x with | .ok (y, _) => some y | .error _ => none) ht
  have e2 := congrArg (fun x => match x with | .ok (y, _) => some y | .error _ => none) h
  simp only [Option.some.injEq] at e1 e2
  rw [← e2, ← e1]
  exact ⟨rfl, rfl, rfl⟩

theorem buildLines_plain (st st' : Flex.State) (gs : List Group) (lines : List LLine)
    (hg : ∀ g ∈ gs, g.cat = .macro →
      ∀ f ∈ g.layout, f.left_space = [] ∧ f.main_txt = [] ∧ f.right_space = [])
    (h : buildLines st gs = .ok (lines, st')) : PlainLines lines := by
  induction gs generalizing st lines with
  | nil =>
    simp only [buildLines, Except.ok.injEq, Prod.mk.injEq] at h
    rw [← h.1]
    intro l hl
    simp at hl
  | cons g gs ih =>
    unfold buildLines at h
    rbind h with r hr
    rbind h with rs hrs
    simp only [Except.ok.injEq, Prod.mk.injEq] at h
    have := ih r.2 rs.1 (fun x hx => hg x (by simp [hx])) (by rw [hrs, ← h.2])
    rw [← h.1]
    intro l hl hne
    rcases List.mem_cons.mp hl with rfl | hl
    · obtain ⟨h1, h2, _⟩ := buildLine_plain st g r.1 r.2 hr
      refine ⟨h1, fun hc => hne ?_⟩
      exact build_no_text st g r.1 r.2 (hg g (by simp) (h2 ▸ hc)) hr
    · exact this l hl hne

theorem directive_no_text {chunk rest : List FileLine} {g : Group}
    (hd : DirectiveBlock chunk g rest) (hl : ∀ f ∈ chunk, f.isFortran = false → LeftOnly f) :
    ∀ f ∈ g.layout, f.left_space = [] ∧ f.main_txt = [] ∧ f.right_space = [] := by
  obtain ⟨f, cs, h1, h2, h3, h4, _, _, h7, _⟩ := hd
  rw [h7]
  intro x hx
  rcases List.mem_cons.mp hx with rfl | hx
  · have := hl x (by rw [h1]; simp) (by
      rcases h4 with h | h | h <;> simp [FileLine.isFortran, h])
    exact ⟨this.1, this.2.1, this.2.2.1⟩
  · obtain ⟨y, _, rfl⟩ := List.mem_map.mp hx
    exact ⟨rfl, rfl, rfl⟩

theorem cut_mem {P : List FileLine → Group → List FileLine → Prop} {fl : List FileLine}
    {gs : List Group} (h : Cut P fl gs) (g : Group) (hg : g ∈ gs) :
    ∃ chunk rest, P chunk g rest ∧ ∀ f ∈ chunk, f ∈ fl := by
  induction h with
  | nil => simp at hg
  | @cons chunk g' rest gs' hne hp _ ih =>
    rcases List.mem_cons.mp hg with rfl | hg
    · exact ⟨chunk, rest, hp, fun f hf => by simp [hf]⟩
    · obtain ⟨c, r, h1, h2⟩ := ih hg
      exact ⟨c, r, h1, fun f hf => by simp [h2 f hf]⟩

/-- **C19** (free format) For a file just read, `make_stmts` gives the statements of the lines. -/
theorem C19_scanned_free (raws : List Str) (gs : List Group) (st st' : Flex.State)
    (lines : List LLine) (h : scanFree raws = .ok (some gs))
    (hb : buildLines st gs = .ok (lines, st')) :
    makeStmts lines = .ok (some (stmtsOf lines)) := by
  apply C19_stmts_partial
  obtain ⟨fl, h1, h2⟩ := C46_free_groups raws gs h
  obtain ⟨_, _, h3⟩ := analyzeAllFree_ok validDelim_NUL h1
  refine buildLines_plain st st' gs lines (fun g hg hc => ?_) hb
  obtain ⟨chunk, rest, hp, hmem⟩ := cut_mem h2 g hg
  rcases hp with hp | hp | hp | hp
  · rw [hp.2.2] at hc; simp at hc
  · rw [hp.2.2] at hc; simp at hc
  · exact directive_no_text hp (fun f hf => (h3 f (hmem f hf)).2)
  · obtain ⟨f, cs, _, _, h5, _⟩ := hp
    rw [h5] at hc; simp at hc

/-- **C19** (fixed format) -/
theorem C19_scanned_fixed (raws : List Str) (lastCol : Int) (gs : List Group) (st st' : Flex.State)
    (lines : List LLine) (h : scanFixed raws lastCol = .ok (some gs))
    (hb : buildLines st gs = .ok (lines, st')) :
    makeStmts lines = .ok (some (stmtsOf lines)) := by
  apply C19_stmts_partial
  obtain ⟨fl, h1, h2⟩ := C46_fixed_groups raws lastCol gs h
  obtain ⟨_, _, h3, _⟩ := analyzeAllFixed_ok h1
  refine buildLines_plain st st' gs lines (fun g hg hc => ?_) hb
  obtain ⟨chunk, rest, hp, hmem⟩ := cut_mem h2 g hg
  rcases hp with hp | hp | hp
  · rw [hp.2.2] at hc; simp at hc
  · exact directive_no_text hp (fun f hf => (h3 f (hmem f hf)).2)
  · obtain ⟨f, cs, _, _, h5, _⟩ := hp
    rw [h5] at hc; simp at hc

/-! ## C50: using a statement source -/

namespace Spec

/-- What a user should see of the statements `todo`, the first of which is the current one. -/
def seenOf : List LLStmt → List SrcOp → List SrcSeen
  | _, [] => []
  | todo, .test :: ops => .flag (!todo.isEmpty) :: seenOf todo ops
  | todo, .next :: ops => .flag (!todo.tail.isEmpty) :: seenOf todo.tail ops
  | [], .get :: _ => [.failed]
  | x :: xs, .get :: ops => .stmt x :: seenOf (x :: xs) ops

end Spec

/-- The statements from the current one on. -/
def StmtSrc.todo (lines : List LLine) (s : StmtSrc) : List LLStmt :=
  s.buf.drop s.curr ++ stmtsFrom [] s.it (lines.drop s.it)

/-- The source has delivered a statement, or there is none. -/
def StmtSrc.Started (lines : List LLine) (s : StmtSrc) : Prop :=
  s.Inv lines ∧ (s.buf = [] → s.rest lines = [] ∧ s.curr = 0)

theorem started_cases (lines : List LLine) (s : StmtSrc) (h : s.Started lines) :
    (s.buf = [] ∧ s.rest lines = [] ∧ s.todo lines = [] ∧ s.current = .error .assertion) ∨
    (∃ x, s.curr < s.buf.length ∧ s.current = .ok x ∧ s.todo lines = x :: s.rest lines) := by
  obtain ⟨⟨i1, i2, i3⟩, h2⟩ := h
  by_cases hb : s.buf = []
  · left
    obtain ⟨h3, h4⟩ := h2 hb
    refine ⟨hb, h3, ?_, by simp [StmtSrc.current, hb]⟩
    simpa [StmtSrc.todo, StmtSrc.rest, hb] using h3
  · right
    have hlt : s.curr < s.buf.length := by
      rcases Nat.lt_or_eq_of_le i2 with h | h
      · exact h
      · exact absurd (i3 h) hb
    refine ⟨s.buf[s.curr], hlt, by simp [StmtSrc.current, List.getElem?_eq_getElem hlt], ?_⟩
    rw [StmtSrc.todo, ← List.getElem_cons_drop (h := hlt)]
    rfl

/-- `advance` leaves a started source. -/
theorem advance_started (lines : List LLine) (hw : PlainLines lines) (s : StmtSrc)
    (hi : s.Inv lines) :
    ∃ s', s.advance lines = .ok (s', !(s.rest lines).isEmpty) ∧ s'.Started lines ∧
      s'.todo lines = s.rest lines := by
  obtain ⟨s', h1, h2⟩ := advance_spec lines hw s hi
  cases hr : s.rest lines with
  | nil =>
    rw [hr] at h2
    obtain ⟨h3, h4, h5⟩ := h2
    have hc : s'.curr = 0 := by
      have := h1.2.1
      rw [h5] at this
      simpa using this
    have hst : s'.Started lines := ⟨h1, fun _ => ⟨h4, hc⟩⟩
    refine ⟨s', h3, hst, ?_⟩
    rcases started_cases lines s' hst with h | ⟨x, h, _⟩
    · exact h.2.2.1
    · rw [h5] at h; simp at h
  | cons x xs =>
    rw [hr] at h2
    obtain ⟨h3, h4, h5⟩ := h2
    have hst : s'.Started lines := ⟨h1, fun hb => by simp [StmtSrc.current, hb] at h4⟩
    refine ⟨s', h3, hst, ?_⟩
    rcases started_cases lines s' hst with h | ⟨y, _, h, h6⟩
    · rw [h4] at h; simp at h
    · rw [h4] at h
      rw [h6, h5, Except.ok.inj h]

theorem run_spec (lines : List LLine) (hw : PlainLines lines) (ops : List SrcOp) (s : StmtSrc)
    (hs : s.Started lines) : s.run lines ops = .ok (seenOf (s.todo lines) ops) := by
  induction ops generalizing s with
  | nil => simp [StmtSrc.run, seenOf]
  | cons op ops ih =>
    have hcs := started_cases lines s hs
    cases op with
    | test =>
      rcases hcs with ⟨h1, h2, h3, _⟩ | ⟨x, h1, h2, h3⟩
      · obtain ⟨h4, h5⟩ := hs.2 h1
        obtain ⟨s', m1, m2, m3, m4, m5⟩ := moreAvail_spec lines hw s hs.1.1 h1 h5
        have he : stmtsFrom [] s.it (lines.drop s.it) = [] := by
          simpa [StmtSrc.todo, h1] using h3
        rw [he] at m1 m4
        have hb : s'.buf = [] := by
          simpa using (List.append_eq_nil_iff.mp m4).1
        have ht : s'.todo lines = [] := by
          rw [StmtSrc.todo, m3, List.drop_zero, m4]
        have hst : s'.Started lines := ⟨m2, fun _ => ⟨by
          rw [StmtSrc.rest, hb, List.drop_nil, List.nil_append]
          exact (List.append_eq_nil_iff.mp m4).2, m3⟩⟩
        have hg : s.good lines = .ok (s', false) := by
          unfold StmtSrc.good
          rw [if_neg (by simp [h1, h5]), m1]
          rfl
        simp only [StmtSrc.run, hg, Res.ok_bind, ih s' hst, ht, h3, seenOf]
        rfl
      · have hg : s.good lines = .ok (s, true) := by
          unfold StmtSrc.good
          rw [if_pos (by omega)]
        simp only [StmtSrc.run, hg, Res.ok_bind, ih s hs, h3, seenOf]
        rfl
    | next =>
      obtain ⟨s', a1, a2, a3⟩ := advance_started lines hw s hs.1
      have ht : (s.todo lines).tail = s.rest lines := by
        rcases hcs with ⟨_, h2, h3, _⟩ | ⟨x, _, _, h3⟩ <;> rw [h3]
        · rw [h2]; rfl
        · rfl
      simp only [StmtSrc.run, a1, Res.ok_bind, ih s' a2, a3, seenOf, ht]
    | get =>
      rcases hcs with ⟨_, _, h3, h4⟩ | ⟨x, _, h2, h3⟩
      · simp only [StmtSrc.run, h4, h3, seenOf]
      · simp only [StmtSrc.run, h2, ih s hs, Res.ok_bind, h3, seenOf]

/-- **C50.**  A source that was created with `do_advance` (the default) behaves as a cursor over the
statements of the lines, for every sequence of uses: testing it changes nothing, `advance` goes to the
next statement and tells whether there is one, `move` refers to the current one.  Missing: sources
created without `do_advance` (see the violation). -/
theorem C50_cursor_partial (lines : List LLine) (hw : PlainLines lines) (ops : List SrcOp) :
    ∃ s, StmtSrc.new lines true = .ok s ∧ s.run lines ops = .ok (seenOf (stmtsOf lines) ops) := by
  obtain ⟨s', a1, a2, a3⟩ := advance_started lines hw {} ⟨by simp, by simp, by simp⟩
  refine ⟨s', by simp [StmtSrc.new, a1], ?_⟩
  rw [run_spec lines hw ops s' a2, a3]
  have h := stmtsFrom_eq lines 0 lines rfl
  have h0 : prefixOf lines 0 = [] := rfl
  rw [h0] at h
  congr 2

/-! ## Examples and violations -/

/-- The statements of a free-format text. -/
def stmtsOfText (raws : List String) : Res (Option (List LLine × List LLStmt)) := do
  match ← scanFree (raws.map String.toList) with
  | none => .ok none
  | some gs => do
    let r ← buildLines {} gs
    let o ← makeStmts r.1
    .ok (o.map (fun ss => (r.1, ss)))

example : (stmtsOfText ["! a", "10 x = 1; y = 2 ;; z = 3", "", "#if 1", "call f(a, &", "  b)", "! end"]).map
    (Option.map (·.2)) = .ok (some [
      ⟨some 1, some (0, 3), 10, 1, [0]⟩, ⟨some 1, some (4, 7), 0, 2, []⟩,
      ⟨some 1, some (9, 12), 0, 3, []⟩, ⟨some 4, some (0, 7), 0, 0, [2, 3]⟩]) := by
  decide +kernel

/-- Such a file meets the hypothesis of `C19_stmts_partial` and `C50_cursor_partial`. -/
example : ∃ ls ss, stmtsOfText ["! a", "x = 1; y = 2"] = .ok (some (ls, ss)) ∧
    ls.length = 2 ∧ ss.length = 2 ∧ PlainLines ls := by
  refine ⟨_, _, rfl, by decide +kernel, by decide +kernel, ?_⟩
  unfold PlainLines
  decide +kernel

/-- **C19** A suppressed line that has statements makes an assertion fail, although the statement says
that such lines are passed over. -/
theorem C19_violation_suppressed :
    makeStmts [{ suppress := true, stmts := [(0, 1)] }] = .error .assertion := by decide +kernel

/-- **C19** A macro line that has statements gives one empty statement instead. -/
theorem C19_violation_macro :
    makeStmts [{ cat := .macro, stmts := [(0, 1), (2, 3)] }] =
      .ok (some [{ pre := [0] }]) := by decide +kernel

/-- **C50** With a source created without `do_advance`, testing it loses the first statement. -/
theorem C50_violation_test (lines : List LLine) (hl : lines = [{ stmts := [(0, 1), (2, 3)] }]) :
    ∃ s, StmtSrc.new lines false = .ok s ∧
      s.run lines [.next, .get] = .ok [.flag true, .stmt ⟨some 0, some (0, 1), 0, 1, []⟩] ∧
      s.run lines [.test, .next, .get] =
        .ok [.flag true, .flag true, .stmt ⟨some 0, some (2, 3), 0, 2, []⟩] := by
  subst hl
  exact ⟨{}, rfl, by decide +kernel, by decide +kernel⟩

end FLPR
