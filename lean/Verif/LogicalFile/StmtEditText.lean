import Verif.LogicalFile.StmtEditPlace
/-!
# Changing the text and the label of a statement of a file (C64)
-/

namespace FLPR
open Spec

namespace Spec

/-- The label of the statement can be read from its line, and its line can be split without taking the label
along: it is the first statement, or there is no label. -/
def LabelSafe (fl : LFile) (pos : Nat) : Prop :=
  ∀ x p r l, fl.stmts[pos]? = some x → x.s.line = some p → x.s.range = some r → fl.lines[p]? = some l →
    LabelRead l ∧ (some r = l.stmts.head? ∨ ∀ f ∈ l.layout, f.bits.label = false)

/-- The tokens from position `i` up to `j`. -/
def between (ts : List Tok) (i j : Nat) : List Tok := (ts.drop i).take (j - i)

/-- Statement `pos` has been changed: `l` is the line it would have had alone, `l'` the line that it has now, alone.
All other statements, and its own label and prefix, are as before. -/
structure StmtChanged (fl fl' : LFile) (pos : Nat) (l l' : LLine) (tag : Int) : Prop where
  tidy : Tidy fl'
  length : fl'.stmts.length = fl.stmts.length
  others : ∀ (j : Nat) x, j ≠ pos → fl.stmts[j]? = some x → ∃ x', fl'.stmts[j]? = some x' ∧ SameStmt fl fl' x x'
  was : ∃ x r ts, fl.stmts[pos]? = some x ∧ l.stmts = [r] ∧ stmtToks fl x = some ts ∧
    List.Forall₂ SameToken ts (slice l.frags r)
  now : ∃ x x' p r, fl.stmts[pos]? = some x ∧ fl'.stmts[pos]? = some x' ∧ x'.s.line = some p ∧
    fl'.lines[p]? = some l' ∧ l'.stmts = [r] ∧ x'.s.range = some r ∧ stmtToks fl' x' = some (slice l'.frags r) ∧
    x'.tag = tag ∧ x'.s.label = x.s.label ∧ x'.s.pre.map (fl'.lines[·]?) = x.s.pre.map (fl.lines[·]?)

end Spec
open Spec

/-- The line and the range of a statement. -/
theorem stmt_place {fl : LFile} (ht : Tidy fl) {pos : Nat} {x : FStmt} (hx : fl.stmts[pos]? = some x) :
    ∃ p r l, x.s.line = some p ∧ x.s.range = some r ∧ fl.lines[p]? = some l ∧ r ∈ l.stmts := by
  obtain ⟨q, hq⟩ : ∃ q, (places 0 fl.lines)[pos]? = some q :=
    ⟨_, List.getElem?_eq_getElem (by rw [← ht.consistent.stmts.length_eq]; exact (List.getElem?_eq_some_iff.mp hx).1)⟩
  obtain ⟨s1, s2, _⟩ := f2_get ht.consistent.stmts hx hq
  obtain ⟨A, l, B, e1, e2, _, _, _, e6⟩ := places_locate hq
  exact ⟨q.line, q.range, l, s1, s2, by rw [e2, e1]; simp, List.mem_of_getElem? e6⟩

theorem isolate_in {fl a : LFile} {pos : Nat} {b : Bool} (h : fl.isolate pos = .ok (b, a)) : pos < fl.stmts.length := by
  unfold LFile.isolate at h
  rbind h with f1 hf1
  split at h
  · simp at h
  · omega

/-- The heart of the functions that change the text of a statement. -/
theorem changed {fl a : LFile} {pos : Nat} {b : Bool} {xa : FStmt} {pa : Nat} {la l' : LLine} {r' : Nat × Nat} {tag : Int}
    (ht : Tidy fl) (hs : LabelSafe fl pos) (h : fl.isolate pos = .ok (b, a)) (hxa : a.stmts[pos]? = some xa)
    (hpa : xa.s.line = some pa) (hla : a.lines[pa]? = some la)
    (hl : LabelRead la → l'.label = la.label ∧ l'.stmts = l'.initStmts.stmts) (hr' : l'.stmts = [r']) :
    StmtChanged fl ⟨a.lines.set pa l', a.stmts.set pos ({ xa with tag := tag }.assign r')⟩ pos la l' tag := by
  have hlt := isolate_in h
  obtain ⟨x, hx⟩ : ∃ x, fl.stmts[pos]? = some x := ⟨_, List.getElem?_eq_getElem hlt⟩
  obtain ⟨p, r0, l, s1, s2, s3, _⟩ := stmt_place ht hx
  obtain ⟨xa', pa', la', r, d1, d2, d3, d4, d5, d6, d7, d8, _⟩ := isolate_place ht h hx s1 s2 s3
  rw [hxa] at d1
  obtain rfl := Option.some.inj d1
  rw [hpa] at d2
  obtain rfl := Option.some.inj d2
  rw [hla] at d3
  obtain rfl := Option.some.inj d3
  obtain ⟨k1, k2⟩ := hs x p r0 l hx s1 s2 s3
  obtain ⟨hlab, hi⟩ := hl (d8 k1 k2)
  have hta := isolate_tidy ht h
  obtain ⟨c1, c2, _⟩ := C20_isolate fl a pos b ht.consistent h
  have hst := f2_get hta.consistent.stmts hxa d7
  set x' : FStmt := { xa with tag := tag }.assign r' with hx'
  have hone : ∀ (j : Nat) q, (places 0 a.lines)[j]? = some q → (q.line = pa ↔ j = pos) := by
    intro j q hq
    constructor
    · intro hh
      obtain ⟨A, l0, B, g1, g2, g3, g4, g5, g6⟩ := places_locate hq
      have e : a.lines[pa]? = some l0 := by rw [← hh, g2, g1]; simp
      rw [hla] at e
      obtain rfl := Option.some.inj e
      obtain ⟨A', l1, B', f1, f2, f3, f4, f5, f6⟩ := places_locate d7
      have e2 : A.length = A'.length := by
        have f2' : pa = A'.length := by simpa using f2
        omega
      have e3 : A = A' := by
        have := congrArg (List.take A.length) (g1.symm.trans f1)
        rw [List.take_left' rfl, List.take_left' e2.symm] at this
        exact this
      rw [d4] at g3
      have f4' : pos = (places 0 A').length + 0 := f4
      rw [← e3] at f4'
      simp at g3
      omega
    · rintro rfl
      rw [d7] at hq
      rw [← Option.some.inj hq]
  obtain ⟨t1, t2⟩ := change_tidy (a := a) hta (p := pa) (l := la) (l' := l') (S' := a.stmts.set pos x') hla
    (by rw [d4]; simp) (by rw [hr', d4]; rfl) hi (by simp) (by
      intro j y y' q hy hy' hq
      have ho := hone j q hq
      constructor
      · intro hh
        have : j ≠ pos := fun e => hh (ho.mpr e)
        rw [List.getElem?_set_ne (Ne.symm this), hy] at hy'
        exact (Option.some.inj hy').symm
      · intro hh
        obtain rfl := ho.mp hh
        rw [hxa] at hy
        obtain rfl := Option.some.inj hy
        rw [d7] at hq
        obtain rfl := Option.some.inj hq
        rw [List.getElem?_set_self (List.getElem?_eq_some_iff.mp hxa).1] at hy'
        obtain rfl := Option.some.inj hy'
        refine ⟨rfl, ?_⟩
        intro r1 hr1
        rw [hr'] at hr1
        obtain rfl := Option.some.inj hr1
        obtain ⟨u1, u2, u3, u4, u5⟩ := hst
        refine ⟨hpa, rfl, ?_, u4, fun hh => by simp [hx', FStmt.assign] at hh⟩
        show xa.s.label = l'.label
        rw [hlab]
        exact u3)
  refine ⟨t1, ?_, ?_, ?_, ?_⟩
  · show (a.stmts.set pos x').length = _
    rw [List.length_set, c2.length_eq]
  · intro j y hj hy
    obtain ⟨ya, hya⟩ : ∃ ya, a.stmts[j]? = some ya :=
      ⟨_, List.getElem?_eq_getElem (by rw [← c2.length_eq]; exact (List.getElem?_eq_some_iff.mp hy).1)⟩
    obtain ⟨q, hq⟩ : ∃ q, (places 0 a.lines)[j]? = some q :=
      ⟨_, List.getElem?_eq_getElem (by rw [← hta.consistent.stmts.length_eq]; exact (List.getElem?_eq_some_iff.mp hya).1)⟩
    obtain ⟨v1, v2⟩ := t2 j ya q hya hq (fun e => hj ((hone j q hq).mp e))
    exact ⟨ya, v1, sameStmt_trans (f2_get c2 hy hya) v2⟩
  · obtain ⟨_, _, _, ts, ts', w1, w2, w3⟩ := d6
    refine ⟨x, r, ts, hx, d4, w1, ?_⟩
    unfold stmtToks at w2
    rw [hpa, d5] at w2
    simp only [hla, Option.map_some, Option.some.injEq] at w2
    rw [w2]
    exact w3
  · have hlp : (a.lines.set pa l')[pa]? = some l' := by
      rw [List.getElem?_set_self (List.getElem?_eq_some_iff.mp hla).1]
    refine ⟨x, x', pa, r', hx, ?_, hpa, hlp, hr', rfl, ?_, rfl, d6.2.1, ?_⟩
    · exact List.getElem?_set_self (List.getElem?_eq_some_iff.mp hxa).1
    · unfold stmtToks
      show (match xa.s.line, some r' with | some p, some r => ((a.lines.set pa l')[p]?).map (fun l => slice (LLine.frags l) r) | _, _ => none) = _
      rw [hpa]
      simp only [hlp, Option.map_some]
    · rw [← d6.2.2.1]
      apply List.map_congr_left
      intro k hk
      obtain ⟨l0, m1, m2⟩ := hta.consistent.pre xa (List.mem_of_getElem? hxa) k hk
      show (a.lines.set pa l')[k]? = _
      rw [List.getElem?_set_ne]
      rintro rfl
      rw [hla] at m1
      obtain rfl := Option.some.inj m1
      rw [d4] at m2
      simp at m2

theorem stmtAt_of {fl : LFile} {pos : Nat} {x : FStmt} (h : fl.stmtAt pos = .ok x) (hlt : pos < fl.stmts.length) :
    fl.stmts[pos]? = some x := by
  unfold LFile.stmtAt at h
  rw [List.getElem?_eq_getElem hlt] at h
  injection h with h
  rw [List.getElem?_eq_getElem hlt, h]

theorem lineOf_of {fl : LFile} {x : FStmt} {pl : Nat × LLine} (h : fl.lineOf x = .ok pl) :
    x.s.line = some pl.1 ∧ fl.lines[pl.1]? = some pl.2 := by
  unfold LFile.lineOf at h
  rbind h with p hp
  split at h
  · simp at h
  rename_i l hl
  injection h with h
  subst h
  unfold FStmt.it at hp
  split at hp
  · simp at hp
  rename_i p' hp'
  injection hp with hp
  subst hp
  exact ⟨hp', hl⟩

theorem regen_of {fl fl' : LFile} {pos p : Nat} {x : FStmt} {l : LLine} (h : fl.regen pos p x l = .ok fl') :
    ∃ s, l.stmts = [s] ∧ fl' = ⟨fl.lines.set p l, fl.stmts.set pos (x.assign s)⟩ := by
  unfold LFile.regen at h
  split at h
  · simp at h
  split at h
  · rename_i s hs
    injection h with h
    exact ⟨s, hs, h.symm⟩
  · simp at h

theorem isolate_length {fl a : LFile} {pos : Nat} {b : Bool} (ht : Tidy fl) (h : fl.isolate pos = .ok (b, a)) :
    pos < a.stmts.length := by
  rw [← (C20_isolate fl a pos b ht.consistent h).2.1.length_eq]
  exact isolate_in h

/-- **C64** `replace_stmt_text`: the statement gets a line of its own, whose text is replaced as
`Logical_Line::replace_main_text` does it, and the given tag; the other statements, and its label and prefix, are as
before. -/
theorem C64_replace_text (st st' : Flex.State) (fl fl' : LFile) (pos : Nat) (new : List Str) (tag : Int)
    (ht : Tidy fl) (hs : LabelSafe fl pos) (h : fl.replaceStmtText st pos new tag = .ok (fl', st')) :
    ∃ l l', l.replaceMain st new = .ok (l', st') ∧ StmtChanged fl fl' pos l l' tag := by
  unfold LFile.replaceStmtText at h
  rbind h with a ha
  rbind h with x hx
  rbind h with l hl
  rbind h with r hr
  rbind h with f hf
  obtain ⟨b, a⟩ := a
  obtain ⟨p, l⟩ := l
  obtain ⟨l', st1⟩ := r
  have hx := stmtAt_of hx (isolate_length ht ha)
  obtain ⟨hp, hla⟩ := lineOf_of hl
  obtain ⟨s, hs', rfl⟩ := regen_of hf
  simp only [Except.ok.injEq, Prod.mk.injEq] at h
  obtain ⟨rfl, rfl⟩ := h
  refine ⟨l, l', hr, changed ht hs ha hx hp hla ?_ hs'⟩
  intro hread
  obtain ⟨k1, k2, _⟩ := replaceMain_label hread ((isolate_tidy ht ha).consistent.lines l (List.mem_of_getElem? hla)) hr
  exact ⟨k1, k2⟩

theorem offset_of {x : FStmt} {len i o : Nat} (h : x.offset len i = .ok o) :
    ∃ r, x.s.range = some r ∧ r.1 ≤ i ∧ i ≤ len ∧ o = i - r.1 := by
  unfold FStmt.offset at h
  split at h
  · simp at h
  rename_i r hr
  split at h
  · simp at h
  injection h with h
  exact ⟨r, hr, by omega, by omega, h.symm⟩

theorem tokAt_of {l : LLine} {o o' : Nat} (h : tokAt l o = .ok o') : o' = o := by
  unfold tokAt at h
  split at h
  · simp at h
  · injection h with h
    exact h.symm

/-- Positions in a statement that has been isolated, if its tokens are the first of its line. -/
theorem between_same {fl : LFile} {x : FStmt} {p : Nat} {l0 l : LLine} {r0 r : Nat × Nat} {ts : List Tok} {i j : Nat}
    (hp : x.s.line = some p) (hr0 : x.s.range = some r0) (hl0 : fl.lines[p]? = some l0)
    (hts : stmtToks fl x = some ts) (hsame : List.Forall₂ SameToken ts (slice l.frags r)) (hr : r.1 = 0)
    (hlen : r.1 ≤ r.2 ∧ r.2 ≤ l.frags.length) (hlen0 : r0.2 ≤ l0.frags.length)
    (hi : r0.1 ≤ i) (hij : i ≤ j) (hj : j ≤ r0.2) :
    List.Forall₂ SameToken (between l0.frags i j) (between l.frags (i - r0.1) (j - r0.1)) := by
  unfold stmtToks at hts
  rw [hp, hr0] at hts
  simp only [hl0, Option.map_some, Option.some.injEq] at hts
  subst hts
  have hlen1 : r.2 = r0.2 - r0.1 := by
    have := hsame.length_eq
    unfold slice at this
    simp only [List.length_take, List.length_drop] at this
    omega
  have e1 : between l0.frags i j = ((slice l0.frags r0).drop (i - r0.1)).take (j - i) := by
    unfold between slice
    rw [List.drop_take, List.drop_drop, List.take_take, show r0.1 + (i - r0.1) = i by omega,
      Nat.min_eq_left (by omega)]
  have e2 : between l.frags (i - r0.1) (j - r0.1) = ((slice l.frags r).drop (i - r0.1)).take (j - i) := by
    unfold between slice
    rw [hr, List.drop_zero, List.drop_take, List.take_take, show j - r0.1 - (i - r0.1) = j - i by omega,
      Nat.min_eq_left (by omega)]
  rw [e1, e2]
  refine f2_of_get ?_ ?_
  · have := hsame.length_eq
    simp only [List.length_take, List.length_drop, this]
  · intro k u v hu hv
    rw [List.getElem?_take] at hu hv
    split at hu
    · rw [if_pos (by assumption)] at hv
      rw [List.getElem?_drop] at hu hv
      exact f2_get hsame hu hv
    · simp at hu

namespace Spec

/-- The tokens of the statement will be the first of its line, when it has been isolated: they are, or it is not
the first statement of its line, which is one physical line. -/
def Leads (fl : LFile) (pos : Nat) : Prop :=
  ∀ x p r l, fl.stmts[pos]? = some x → x.s.line = some p → x.s.range = some r → fl.lines[p]? = some l →
    r.1 = 0 ∨ (some r ≠ l.stmts.head? ∧ l.layout.length = 1)

end Spec
open Spec

/-- **C64** `replace_stmt_substr`: the tokens of the statement from position `i` up to `j` of its line are replaced as
`Logical_Line::replace_fragment` does it, in a line of its own. -/
theorem C64_replace_substr (st st' : Flex.State) (fl fl' : LFile) (pos i j : Nat) (new : Str) (x : FStmt) (p : Nat)
    (r0 : Nat × Nat) (l0 : LLine) (ht : Tidy fl) (hs : LabelSafe fl pos) (hx : fl.stmts[pos]? = some x)
    (hp : x.s.line = some p) (hr0 : x.s.range = some r0) (hl0 : fl.lines[p]? = some l0)
    (h : fl.replaceStmtSubstr st pos i j new = .ok (fl', st')) :
    ∃ l l', l.replaceSubstr st (i - r0.1) (j - r0.1) new = .ok (l', st') ∧ StmtChanged fl fl' pos l l' x.tag ∧
      r0.1 ≤ i ∧ (Leads fl pos → j ≤ r0.2 → List.Forall₂ SameToken (between l0.frags i j) (between l.frags (i - r0.1) (j - r0.1))) := by
  unfold LFile.replaceStmtSubstr at h
  rbind h with x0 hx0
  rbind h with pl hpl
  rbind h with o ho
  rbind h with e he
  rbind h with a ha
  rbind h with xa hxa
  rbind h with l hl
  rbind h with o1 ho1
  rbind h with e1 he1
  split at h
  · simp at h
  rename_i hoe
  rbind h with r hr
  rbind h with f hf
  obtain ⟨b, a⟩ := a
  obtain ⟨pa, l⟩ := l
  obtain ⟨l', st1⟩ := r
  have hx0 := stmtAt_of hx0 (isolate_in ha)
  rw [hx] at hx0
  obtain rfl := Option.some.inj hx0
  have hxa := stmtAt_of hxa (isolate_length ht ha)
  obtain ⟨hpa, hla⟩ := lineOf_of hl
  obtain ⟨s, hs', rfl⟩ := regen_of hf
  simp only [Except.ok.injEq, Prod.mk.injEq] at h
  obtain ⟨rfl, rfl⟩ := h
  obtain ⟨r1, g1, g2, g3, rfl⟩ := offset_of ho
  obtain ⟨r2, k1, k2, k3, rfl⟩ := offset_of he
  rw [hr0] at g1 k1
  obtain rfl := Option.some.inj g1
  obtain rfl := Option.some.inj k1
  obtain rfl := tokAt_of ho1
  obtain rfl := tokAt_of he1
  obtain ⟨xa', pa', la', ra, d1, d2, d3, d4, d5, d6, d7, d8, d9, d10⟩ := isolate_place ht ha hx hp hr0 hl0
  rw [hxa] at d1
  obtain rfl := Option.some.inj d1
  rw [hpa] at d2
  obtain rfl := Option.some.inj d2
  rw [hla] at d3
  obtain rfl := Option.some.inj d3
  have hch := changed (tag := x.tag) (l' := l') ht hs ha hxa hpa hla (fun hread => by
    obtain ⟨m1, m2, _⟩ := replaceSubstr_label hread hr
    exact ⟨m1, by rw [m2]⟩) hs'
  have etag : ({ xa with tag := x.tag } : FStmt) = xa := by rw [← d6.1]
  rw [etag] at hch
  refine ⟨l, l', hr, hch, g2, ?_⟩
  intro hlead hj
  have hr1 : ra.1 = 0 := by
    rcases hlead x p r0 l0 hx hp hr0 hl0 with hh | ⟨hh, hh'⟩
    · exact d9 hh
    · exact d10 hh hh'
  obtain ⟨_, _, _, ts, ts', w1, w2, w3⟩ := d6
  unfold stmtToks at w2
  rw [hpa, d5] at w2
  simp only [hla, Option.map_some, Option.some.injEq] at w2
  rw [← w2] at w3
  have hmr : MaximalRun l.frags ra := by
    have := (C16_ranges l).2 ra
    rw [← (isolate_tidy ht ha).consistent.lines l (List.mem_of_getElem? hla), d4] at this
    exact this.mp (by simp)
  have hmr0 : MaximalRun l0.frags r0 := by
    obtain ⟨p', r', l1, n1, n2, n3, n4⟩ := stmt_place ht hx
    rw [hp] at n1
    obtain rfl := Option.some.inj n1
    rw [hr0] at n2
    obtain rfl := Option.some.inj n2
    rw [hl0] at n3
    obtain rfl := Option.some.inj n3
    have := (C16_ranges l0).2 r0
    rw [← ht.consistent.lines l0 (List.mem_of_getElem? hl0)] at this
    exact this.mp n4
  exact between_same hp hr0 hl0 w1 w3 hr1 ⟨le_of_lt hmr.1, hmr.2.1⟩ hmr0.2.1 g2 (by omega) hj

/-- **C64** `insert_text_after`: the text is inserted behind the token of the statement at position `i` of its line as
`Logical_Line::insert_text_after` does it, in a line of its own – if that line still has one statement. -/
theorem C64_insert_after_partial (st st' : Flex.State) (fl fl' : LFile) (pos i : Nat) (new : Str) (x : FStmt) (p : Nat)
    (r0 : Nat × Nat) (l0 : LLine) (ht : Tidy fl) (hs : LabelSafe fl pos) (hx : fl.stmts[pos]? = some x)
    (hp : x.s.line = some p) (hr0 : x.s.range = some r0) (hl0 : fl.lines[p]? = some l0)
    (h : fl.insertTextAfter st pos i new = .ok (fl', st')) :
    ∃ l l', l.insertAfter st (i - r0.1) new = .ok (l', st') ∧
      (l'.stmts.length = 1 → StmtChanged fl fl' pos l l' x.tag) ∧ r0.1 ≤ i ∧
      (Leads fl pos → i < r0.2 → List.Forall₂ SameToken (between l0.frags i (i + 1)) (between l.frags (i - r0.1) (i - r0.1 + 1))) := by
  unfold LFile.insertTextAfter at h
  rbind h with x0 hx0
  rbind h with pl hpl
  rbind h with o ho
  rbind h with a ha
  rbind h with xa hxa
  rbind h with l hl
  rbind h with o1 ho1
  rbind h with r hr
  obtain ⟨b, a⟩ := a
  obtain ⟨pa, l⟩ := l
  obtain ⟨l', st1⟩ := r
  dsimp only at h
  split at h
  · simp at h
  rename_i s ss hss
  have hx0 := stmtAt_of hx0 (isolate_in ha)
  rw [hx] at hx0
  obtain rfl := Option.some.inj hx0
  have hxa := stmtAt_of hxa (isolate_length ht ha)
  obtain ⟨hpa, hla⟩ := lineOf_of hl
  simp only [Except.ok.injEq, Prod.mk.injEq] at h
  obtain ⟨rfl, rfl⟩ := h
  obtain ⟨r1, g1, g2, g3, rfl⟩ := offset_of ho
  rw [hr0] at g1
  obtain rfl := Option.some.inj g1
  obtain rfl := tokAt_of ho1
  obtain ⟨xa', pa', la', ra, d1, d2, d3, d4, d5, d6, d7, d8, d9, d10⟩ := isolate_place ht ha hx hp hr0 hl0
  rw [hxa] at d1
  obtain rfl := Option.some.inj d1
  rw [hpa] at d2
  obtain rfl := Option.some.inj d2
  rw [hla] at d3
  obtain rfl := Option.some.inj d3
  have etag : ({ xa with tag := x.tag } : FStmt) = xa := by rw [← d6.1]
  refine ⟨l, l', hr, ?_, g2, ?_⟩
  · intro hone
    have hs' : l'.stmts = [s] := by
      cases ss with
      | nil => exact hss
      | cons s2 ss => rw [hss] at hone; simp at hone
    have hch := changed (tag := x.tag) (l' := l') ht hs ha hxa hpa hla (fun hread => by
      obtain ⟨m1, m2, _⟩ := insertAfter_label hread hr
      exact ⟨m1, by rw [m2]⟩) hs'
    rw [etag] at hch
    exact hch
  intro hlead hj
  have hr1 : ra.1 = 0 := by
    rcases hlead x p r0 l0 hx hp hr0 hl0 with hh | ⟨hh, hh'⟩
    · exact d9 hh
    · exact d10 hh hh'
  obtain ⟨_, _, _, ts, ts', w1, w2, w3⟩ := d6
  unfold stmtToks at w2
  rw [hpa, d5] at w2
  simp only [hla, Option.map_some, Option.some.injEq] at w2
  rw [← w2] at w3
  have hmr : MaximalRun l.frags ra := by
    have := (C16_ranges l).2 ra
    rw [← (isolate_tidy ht ha).consistent.lines l (List.mem_of_getElem? hla), d4] at this
    exact this.mp (by simp)
  have hmr0 : MaximalRun l0.frags r0 := by
    obtain ⟨p', r', l1, n1, n2, n3, n4⟩ := stmt_place ht hx
    rw [hp] at n1
    obtain rfl := Option.some.inj n1
    rw [hr0] at n2
    obtain rfl := Option.some.inj n2
    rw [hl0] at n3
    obtain rfl := Option.some.inj n3
    have := (C16_ranges l0).2 r0
    rw [← ht.consistent.lines l0 (List.mem_of_getElem? hl0)] at this
    exact this.mp n4
  have := between_same (i := i) (j := i + 1) hp hr0 hl0 w1 w3 hr1 ⟨le_of_lt hmr.1, hmr.2.1⟩ hmr0.2.1 g2 (by omega) (by omega)
  rw [show i + 1 - r0.1 = i - r0.1 + 1 by omega] at this
  exact this

/-- **C64** `append_stmt_text`: the text is inserted in front of the end of the statement as
`Logical_Line::insert_text_before` does it, in a line of its own. -/
theorem C64_append_text (st st' : Flex.State) (fl fl' : LFile) (pos : Nat) (new : Str) (x : FStmt)
    (ht : Tidy fl) (hs : LabelSafe fl pos) (hx : fl.stmts[pos]? = some x)
    (h : fl.appendStmtText st pos new = .ok (fl', st')) :
    ∃ l l' r, l.stmts = [r] ∧ l.insertBefore st r.2 new = .ok (l', st') ∧ StmtChanged fl fl' pos l l' x.tag := by
  unfold LFile.appendStmtText at h
  rbind h with a ha
  rbind h with xa hxa
  rbind h with l hl
  obtain ⟨b, a⟩ := a
  obtain ⟨pa, l⟩ := l
  dsimp only at h
  split at h
  · simp at h
  rename_i r hr
  split at h
  · simp at h
  rbind h with z hz
  rbind h with f hf
  obtain ⟨l', st1⟩ := z
  have hxa := stmtAt_of hxa (isolate_length ht ha)
  obtain ⟨hpa, hla⟩ := lineOf_of hl
  obtain ⟨s, hs', rfl⟩ := regen_of hf
  simp only [Except.ok.injEq, Prod.mk.injEq] at h
  obtain ⟨rfl, rfl⟩ := h
  obtain ⟨p, r0, l0, s1, s2, s3, _⟩ := stmt_place ht hx
  obtain ⟨xa', pa', la', ra, d1, d2, d3, d4, d5, d6, _⟩ := isolate_place ht ha hx s1 s2 s3
  rw [hxa] at d1
  obtain rfl := Option.some.inj d1
  rw [hpa] at d2
  obtain rfl := Option.some.inj d2
  rw [hla] at d3
  obtain rfl := Option.some.inj d3
  rw [hr] at d5
  obtain rfl := Option.some.inj d5
  have hch := changed (tag := x.tag) (l' := l') ht hs ha hxa hpa hla (fun hread => by
    obtain ⟨m1, m2, _⟩ := insertBefore_label hread hz
    exact ⟨m1, by rw [m2]⟩) hs'
  have etag : ({ xa with tag := x.tag } : FStmt) = xa := by rw [← d6.1]
  rw [etag] at hch
  exact ⟨l, l', r, d4, hz, hch⟩

end FLPR
