import Verif.LogicalFile.StmtEditLemmas
/-!
# Inserting statements into a file (C64)
-/

namespace FLPR
open Spec

/-! ## Where the line goes -/

theorem placesLen_mono (lines : List LLine) {m n : Nat} (h : m ≤ n) :
    (places 0 (lines.take m)).length ≤ (places 0 (lines.take n)).length := by
  have : lines.take n = lines.take m ++ (lines.take n).drop m := by
    rw [show lines.take m = (lines.take n).take m by rw [List.take_take]; congr 1; omega, List.take_append_drop]
  rw [this, places_append]
  simp

/-- The first statement of a line behind statement `pos` is on a later line. -/
theorem places_later {lines : List LLine} {pos j : Nat} {q qj : Place} (hq : (places 0 lines)[pos]? = some q)
    (hj : (places 0 lines)[j]? = some qj) (hlt : pos < j) (h0 : qj.idx = 0) : q.line < qj.line := by
  obtain ⟨A, l, B, e1, e2, e3, e4, _⟩ := places_locate hq
  obtain ⟨A', l', B', f1, f2, f3, f4, _⟩ := places_locate hj
  by_contra hh
  have hA : A = lines.take A.length := by rw [e1]; simp
  have hA' : A' = lines.take A'.length := by rw [f1]; simp
  have := placesLen_mono lines (m := A'.length) (n := A.length) (by omega)
  rw [← hA, ← hA'] at this
  omega

/-- The statements in front of line `i`, when nothing is between it and the line of statement `pos`. -/
theorem places_upto {lines : List LLine} {pos i : Nat} {q : Place} (hq : (places 0 lines)[pos]? = some q)
    (h0 : q.idx = 0) (hi : i ≤ q.line) (hno : ∀ m, i ≤ m → m < q.line → ∃ l, lines[m]? = some l ∧ l.stmts = []) :
    i ≤ lines.length ∧ (places 0 (lines.take i)).length = pos := by
  obtain ⟨A, l, B, e1, e2, e3, e4, _⟩ := places_locate hq
  have hAlen : A.length = q.line := by omega
  have hlen : i ≤ lines.length := by rw [e1]; simp; omega
  refine ⟨hlen, ?_⟩
  have hsplit : A = A.take i ++ A.drop i := (List.take_append_drop i A).symm
  have htake : lines.take i = A.take i := by rw [e1, List.take_append_of_le_length (by omega)]
  have hnil : places (0 + (A.take i).length) (A.drop i) = [] := by
    apply places_no_stmts
    intro l0 hl0
    obtain ⟨m, hm, hml⟩ := List.mem_iff_getElem.mp hl0
    rw [List.length_drop] at hm
    obtain ⟨l1, h1, h2⟩ := hno (i + m) (by omega) (by omega)
    rw [e1, List.getElem?_append_left (by omega)] at h1
    rw [List.getElem_drop] at hml
    rw [List.getElem?_eq_getElem (by omega), hml] at h1
    rw [Option.some.inj h1]
    exact h2
  rw [h0, Nat.add_zero] at e4
  rw [e4, htake]
  conv => rhs; rw [hsplit, places_append, hnil]
  simp

theorem srcStmt_ok (i : Nat) {ll : LLine} {r : Nat × Nat} (hl : ll.stmts = [r]) (hs : ll.suppress = false)
    (hm : ll.cat ≠ .macro) :
    srcStmt i ll = .ok { line := some i, range := some r, label := ll.label, compound := 0, pre := [] } := by
  unfold srcStmt StmtSrc.new
  rw [if_pos rfl]
  have e1 : StmtSrc.advance [ll] {} = .ok (⟨1, [{ line := some 0, range := some r, label := ll.label, compound := 0, pre := [] }], 0⟩, true) := by
    unfold StmtSrc.advance
    simp only [ne_eq, List.length_nil, not_true_eq_false, if_false]
    rw [if_pos trivial]
    unfold StmtSrc.moreAvail
    have e2 : StmtSrc.moreAvailGo [ll] ([ll].length - 0) ⟨0, [], 0⟩ = .ok ⟨1, [{ line := some 0, range := some r, label := ll.label, compound := 0, pre := [] }], 0⟩ := by
      show StmtSrc.moreAvailGo [ll] 1 ⟨0, [], 0⟩ = _
      unfold StmtSrc.moreAvailGo
      rw [if_pos ⟨rfl, by simp⟩]
      have e3 : StmtSrc.refill [ll] ⟨0, [], 0⟩ = .ok ⟨1, [{ line := some 0, range := some r, label := ll.label, compound := 0, pre := [] }], 0⟩ := by
        unfold StmtSrc.refill
        simp [skipPrefix, hl, hs, hm, lineStmts]
      rw [e3]
      rfl
    show (StmtSrc.moreAvailGo [ll] ([ll].length - 0) ⟨0, [], 0⟩ >>= fun s' => Except.ok (s', !s'.buf.isEmpty)) = _
    rw [e2]
    rfl
  rw [e1]
  simp [Res.ok_bind, StmtSrc.current]

theorem LFile.stmtAt_ok {fl : LFile} {pos : Nat} {x : FStmt} (h : fl.stmts[pos]? = some x) : fl.stmtAt pos = .ok x := by
  unfold LFile.stmtAt; rw [h]

namespace Spec

/-- A line that a user may insert: it holds one statement and has just been made. -/
structure OneStmt (ll : LLine) (r : Nat × Nat) : Prop where
  stmts : ll.stmts = [r]
  made : ll.initStmts = ll
  shown : ll.suppress = false
  cat : ll.cat ≠ .macro

/-- The statement `pos` of `fl'` is new, of the line `ll`; all others are those of `fl`. -/
def StmtInserted (fl fl' : LFile) (pos : Nat) (ll : LLine) (r : Nat × Nat) (tag : Int) : Prop :=
  (∃ y, fl'.stmts[pos]? = some y ∧ y.tag = tag ∧ y.s.label = ll.label ∧ y.s.pre = [] ∧ y.live = true ∧
    y.s.compound = 0 ∧ stmtToks fl' y = some (slice ll.frags r)) ∧
  List.Forall₂ (SameStmt fl fl') fl.stmts (fl'.stmts.eraseIdx pos) ∧ fl'.stmts.length = fl.stmts.length + 1

end Spec
open Spec

theorem semis_of_init {ll : LLine} (h : ll.initStmts = ll) : ll.semis ≠ -1 := by
  have : 0 ≤ ll.initStmts.semis := by
    show 0 ≤ (initStmtsGo 0 none ll.frags).2
    have key : ∀ (ts : List Tok) (k : Nat) (beg : Option Nat), 0 ≤ (initStmtsGo k beg ts).2 := by
      intro ts
      induction ts with
      | nil => intro k beg; unfold initStmtsGo; cases beg <;> simp; split <;> simp
      | cons t ts ih =>
        intro k beg
        unfold initStmtsGo
        dsimp only
        split
        · have := ih (k + 1) none
          show 0 ≤ (initStmtsGo (k + 1) none ts).2 + 1
          omega
        · exact ih _ _
    exact key _ _ _
  rw [h] at this
  omega

theorem emplaceAt_ok {a : LFile} {pos i : Nat} {ll : LLine} {r : Nat × Nat} (tag : Int) (hi : i ≤ a.lines.length)
    (hl : OneStmt ll r) :
    a.emplaceAt pos i ll tag = .ok (a.ins pos i ll { s := { line := some i, range := some r, label := ll.label, compound := 0, pre := [] }, tag := tag }) := by
  unfold LFile.emplaceAt
  rw [if_neg (by omega), srcStmt_ok i hl.stmts hl.shown hl.cat]
  rfl

theorem splitBefore_small {fl : LFile} {pos : Nat} {x : FStmt} (hx : fl.stmts[pos]? = some x) (h : x.s.compound < 2) :
    fl.splitBefore pos = .ok (false, fl) := by
  have := (List.getElem?_eq_some_iff.mp hx).1
  unfold LFile.splitBefore
  rw [if_neg (by omega), hx]
  dsimp only
  rw [if_pos h]

/-- **C64** `emplace_ll_stmt` does not fail when the line in question can be split: the new statement comes
in front of the given one and of its prefix, and has no prefix itself; all other statements keep their tags, labels,
prefixes and tokens; the statements are again those of the lines. -/
theorem C64_emplace (fl : LFile) (pos : Nat) (ll : LLine) (r : Nat × Nat) (tag : Int) (b : Bool) (a : LFile)
    (ht : Tidy fl) (hpos : pos < fl.stmts.length) (hl : OneStmt ll r) (hsp : fl.splitBefore pos = .ok (b, a)) :
    ∃ fl' C D, fl.emplace pos ll tag = .ok fl' ∧ Tidy fl' ∧ StmtInserted fl fl' pos ll r tag ∧
      a.lines = C ++ D ∧ fl'.lines = C ++ ll :: D ∧
      ∃ x', fl'.stmts[pos + 1]? = some x' ∧ x'.s.pre.head?.or x'.s.line = some (C.length + 1) := by
  obtain ⟨x, hx⟩ : ∃ x, fl.stmts[pos]? = some x := ⟨_, List.getElem?_eq_getElem hpos⟩
  obtain ⟨ta, hsame, hidx⟩ := split_tidy ht hsp
  have hposa : pos < a.stmts.length := by rw [← hsame.length_eq]; exact hpos
  obtain ⟨x1, hx1⟩ : ∃ x1, a.stmts[pos]? = some x1 := ⟨_, List.getElem?_eq_getElem hposa⟩
  obtain ⟨q, hq⟩ : ∃ q, (places 0 a.lines)[pos]? = some q :=
    ⟨_, List.getElem?_eq_getElem (by rw [← ta.consistent.stmts.length_eq]; exact hposa)⟩
  have h0 := hidx q hq
  obtain ⟨s1, s2, _⟩ := f2_get ta.consistent.stmts hx1 hq
  obtain ⟨p1, p2, p3⟩ := f2_get ta.prefixes hx1 hq
  -- the position
  obtain ⟨i, hi, hile, hno, hge⟩ : ∃ i, x1.prefixBegin = .ok i ∧ i ≤ q.line ∧
      (∀ m, i ≤ m → m < q.line → ∃ l, a.lines[m]? = some l ∧ l.stmts = []) ∧ (∀ k ∈ x1.s.pre, i ≤ k) := by
    unfold FStmt.prefixBegin
    cases hp : x1.s.pre with
    | nil =>
      refine ⟨q.line, ?_, le_refl _, fun m h1 h2 => by omega, by simp⟩
      unfold FStmt.it
      rw [s1]
    | cons k ks =>
      have hk := p3 k (by rw [hp]; simp)
      refine ⟨k, rfl, by omega, hk.2, ?_⟩
      rw [hp] at p1
      intro k' hk'
      rcases List.mem_cons.mp hk' with rfl | hk'
      · exact le_refl _
      · have := (List.pairwise_cons.mp p1).1 k' hk'
        omega
  obtain ⟨hil, hplen⟩ := places_upto hq h0 hile hno
  have hemp : fl.emplace pos ll tag = .ok (a.ins pos i ll { s := { line := some i, range := some r, label := ll.label, compound := 0, pre := [] }, tag := tag }) := by
    unfold LFile.emplace
    rw [if_neg (by rw [hl.stmts]; have := semis_of_init hl.made; simp [this]), LFile.stmtAt_ok hx]
    have hmid : (if x.s.compound > 1 then (do let b ← fl.splitBefore pos; .ok b.2) else .ok fl : Res LFile) = .ok a := by
      by_cases hc : x.s.compound > 1
      · rw [if_pos hc, hsp]; rfl
      · rw [if_neg hc]
        rw [splitBefore_small hx (by omega)] at hsp
        injection hsp with hsp
        injection hsp with _ hsp
        rw [hsp]
    show ((if x.s.compound > 1 then (do let b ← fl.splitBefore pos; .ok b.2) else .ok fl : Res LFile) >>= _) = _
    rw [hmid]
    show (a.stmtAt pos >>= _) = _
    rw [LFile.stmtAt_ok hx1]
    show (x1.prefixBegin >>= _) = _
    rw [hi]
    exact emplaceAt_ok tag hil hl
  generalize hy : ({ s := { line := some i, range := some r, label := ll.label, compound := 0, pre := [] }, tag := tag } : FStmt) = y at hemp
  have hpre : ∀ (j : Nat) z, pos ≤ j → a.stmts[j]? = some z → ∀ k ∈ z.s.pre, i ≤ k := by
    intro j z hj hz k hk
    by_cases hjp : j = pos
    · subst hjp
      rw [hx1] at hz
      obtain rfl := Option.some.inj hz
      exact hge k hk
    · obtain ⟨qj, hqj⟩ : ∃ qj, (places 0 a.lines)[j]? = some qj :=
        ⟨_, List.getElem?_eq_getElem (by rw [← ta.consistent.stmts.length_eq]; exact (List.getElem?_eq_some_iff.mp hz).1)⟩
      obtain ⟨u1, u2, u3⟩ := f2_get ta.prefixes hz hqj
      have hq0 := u2 (by intro hh; rw [hh] at hk; simp at hk)
      have hlater := places_later hq hqj (by omega) hq0
      by_contra hki
      obtain ⟨l0, v1, v2⟩ := (u3 k hk).2 q.line (by omega) hlater
      obtain ⟨A, l, B, e1, e2, e3, _⟩ := places_locate hq
      have : a.lines[q.line]? = some l := by rw [e2, e1]; simp
      rw [this] at v1
      obtain rfl := Option.some.inj v1
      rw [v2] at e3
      simp at e3
  have hyS : Stands y ⟨i, r, 0, 1, ll.label⟩ := by
    subst hy
    exact ⟨rfl, rfl, rfl, Or.inr ⟨rfl, rfl⟩, fun _ => rfl⟩
  have hyP : PrefixOk a.lines y ⟨i, r, 0, 1, ll.label⟩ := by
    subst hy
    exact ⟨.nil, fun hh => absurd rfl hh, by simp⟩
  obtain ⟨t', hold⟩ := insert_tidy ta hil hplen hpre hl.stmts (by rw [hl.made]) hyS hyP
  have hlen1 : ((a.stmts.map (·.push i)).take pos).length = pos := by rw [List.length_take, List.length_map]; omega
  have hers : (a.ins pos i ll y).stmts.eraseIdx pos = a.stmts.map (·.push i) := by
    show ((a.stmts.map (·.push i)).take pos ++ y :: (a.stmts.map (·.push i)).drop pos).eraseIdx pos = _
    rw [List.eraseIdx_append_of_length_le (by omega), hlen1, Nat.sub_self]
    exact List.take_append_drop _ _
  have hlcs : (a.lines.take i).length = i := by rw [List.length_take]; omega
  refine ⟨a.ins pos i ll y, a.lines.take i, a.lines.drop i, hemp, t', ⟨⟨y, ?_, ?_⟩, ?_, ?_⟩, (List.take_append_drop _ _).symm, rfl, x1.push i, ?_, ?_⟩
  · show ((a.stmts.map (·.push i)).take pos ++ y :: _)[pos]? = _
    rw [List.getElem?_append_right (by omega), hlen1, Nat.sub_self]
    rfl
  · subst hy
    refine ⟨rfl, rfl, rfl, rfl, rfl, ?_⟩
    unfold stmtToks
    show ((a.lines.take i ++ ll :: a.lines.drop i)[i]?).map _ = _
    rw [List.getElem?_append_right (by omega), hlcs, Nat.sub_self]
    rfl
  · rw [hers]
    refine sameStmts_trans hsame ?_
    refine f2_of_get (by simp) ?_
    intro j u v hu hv
    rw [List.getElem?_map, hu] at hv
    rw [← Option.some.inj hv]
    exact hold u (List.mem_of_getElem? hu)
  · show ((a.stmts.map (·.push i)).take pos ++ y :: (a.stmts.map (·.push i)).drop pos).length = _
    rw [List.length_append, hlen1, List.length_cons, List.length_drop, List.length_map, hsame.length_eq]
    omega
  · show ((a.stmts.map (·.push i)).take pos ++ y :: (a.stmts.map (·.push i)).drop pos)[pos + 1]? = _
    rw [List.getElem?_append_right (by omega), hlen1, show pos + 1 - pos = 0 + 1 by omega, List.getElem?_cons_succ,
      List.getElem?_drop, Nat.add_zero, List.getElem?_map, hx1]
    rfl
  · rw [hlcs]
    show (x1.s.pre.map (pushPos i)).head?.or (x1.s.line.map (pushPos i)) = _
    unfold FStmt.prefixBegin at hi
    cases hp : x1.s.pre with
    | nil =>
      rw [hp] at hi
      unfold FStmt.it at hi
      rw [s1] at hi
      have : q.line = i := by simpa using hi
      rw [s1]
      simp [pushPos, this]
    | cons k ks =>
      rw [hp] at hi
      have : k = i := by simpa using hi
      simp [pushPos, this]

/-! ## Behind the prefix -/

namespace Spec

/-- `x'` of `fl'` is `x` of `fl` but for its prefix, which is empty. -/
def SameButPrefix (fl fl' : LFile) (x x' : FStmt) : Prop :=
  x'.tag = x.tag ∧ x'.s.label = x.s.label ∧ x'.s.pre = [] ∧
  ∃ ts ts', stmtToks fl x = some ts ∧ stmtToks fl' x' = some ts' ∧ List.Forall₂ SameToken ts ts'

end Spec
open Spec

theorem le_getLast {l : List Nat} (h : l.Pairwise (· < ·)) {b : Nat} (hb : l.getLast? = some b) :
    ∀ k ∈ l, k ≤ b := by
  intro k hk
  obtain ⟨ys, rfl⟩ := List.getLast?_eq_some_iff.mp hb
  rcases List.mem_append.mp hk with hk | hk
  · have := (List.pairwise_append.mp h).2.2 k hk b (by simp)
    omega
  · simp at hk
    omega

/-- **C64** `emplace_ll_stmt_after_prefix` for a statement that has a prefix: it does not fail; the new statement is
put between the prefix and the given statement and takes the prefix over; nothing else changes.  (Without a prefix the
function is `emplace_ll_stmt`, `C64_emplace_no_prefix`.) -/
theorem C64_emplace_after_prefix (fl : LFile) (pos : Nat) (x : FStmt) (ll : LLine) (r : Nat × Nat) (tag : Int)
    (ht : Tidy fl) (hx : fl.stmts[pos]? = some x) (hne : x.s.pre ≠ []) (hl : OneStmt ll r) :
    ∃ fl' C D y x', fl.emplaceAfterPrefix pos ll tag = .ok fl' ∧ Tidy fl' ∧
      fl.lines = C ++ D ∧ fl'.lines = C ++ ll :: D ∧ x.s.pre.getLast? = some (C.length - 1) ∧ 0 < C.length ∧
      fl'.stmts.length = fl.stmts.length + 1 ∧
      fl'.stmts[pos]? = some y ∧ y.tag = tag ∧ y.s.label = ll.label ∧ y.s.pre = x.s.pre ∧
      y.s.pre.map (fl'.lines[·]?) = x.s.pre.map (fl.lines[·]?) ∧ stmtToks fl' y = some (slice ll.frags r) ∧
      fl'.stmts[pos + 1]? = some x' ∧ SameButPrefix fl fl' x x' ∧
      List.Forall₂ (SameStmt fl fl') (fl.stmts.take pos) (fl'.stmts.take pos) ∧
      List.Forall₂ (SameStmt fl fl') (fl.stmts.drop (pos + 1)) (fl'.stmts.drop (pos + 2)) := by
  have hpos := (List.getElem?_eq_some_iff.mp hx).1
  obtain ⟨q, hq⟩ : ∃ q, (places 0 fl.lines)[pos]? = some q :=
    ⟨_, List.getElem?_eq_getElem (by rw [← ht.consistent.stmts.length_eq]; exact hpos)⟩
  have hstand := f2_get ht.consistent.stmts hx hq
  obtain ⟨p1, p2, p3⟩ := f2_get ht.prefixes hx hq
  have h0 := p2 hne
  obtain ⟨b, hb⟩ : ∃ b, x.s.pre.getLast? = some b := by
    cases hh : x.s.pre.getLast? with
    | none => rw [List.getLast?_eq_none_iff] at hh; exact absurd hh hne
    | some b => exact ⟨b, rfl⟩
  have hbm : b ∈ x.s.pre := List.mem_of_getLast? hb
  have hbq := (p3 b hbm).1
  have hno : ∀ m, b + 1 ≤ m → m < q.line → ∃ l, fl.lines[m]? = some l ∧ l.stmts = [] :=
    fun m h1 h2 => (p3 b hbm).2 m (by omega) h2
  obtain ⟨hil, hplen⟩ := places_upto hq h0 (by omega : b + 1 ≤ q.line) hno
  have hkb := le_getLast p1 hb
  -- the file without the prefix
  let x0 : FStmt := { x with s := { x.s with pre := [] } }
  let a : LFile := ⟨fl.lines, fl.stmts.set pos x0⟩
  have hast : ∀ (j : Nat), a.stmts[j]? = if j = pos then some x0 else fl.stmts[j]? := by
    intro j
    show (fl.stmts.set pos x0)[j]? = _
    rw [List.getElem?_set]
    by_cases hj : pos = j
    · subst hj; simp [hpos]
    · rw [if_neg hj, if_neg (Ne.symm hj)]
  have ta : Tidy a := by
    refine ⟨⟨ht.consistent.lines, ?_, ?_⟩, ?_⟩
    · refine f2_of_get (by show (fl.stmts.set pos x0).length = _; rw [List.length_set]; exact ht.consistent.stmts.length_eq) ?_
      intro j u v hu hv
      rw [hast] at hu
      split at hu
      · rename_i hj
        subst hj
        rw [← Option.some.inj hu]
        exact (f2_get ht.consistent.stmts hx hv : Stands x v)
      · exact f2_get ht.consistent.stmts hu hv
    · intro u hu k hk
      rcases List.mem_or_eq_of_mem_set hu with hu | rfl
      · exact ht.consistent.pre u hu k hk
      · simp [x0] at hk
    · refine f2_of_get (by show (fl.stmts.set pos x0).length = _; rw [List.length_set]; exact ht.consistent.stmts.length_eq) ?_
      intro j u v hu hv
      rw [hast] at hu
      split at hu
      · rw [← Option.some.inj hu]
        exact ⟨.nil, fun hh => absurd rfl hh, by simp [x0]⟩
      · exact f2_get ht.prefixes hu hv
  let y0 : FStmt := { s := { line := some (b + 1), range := some r, label := ll.label, compound := 0, pre := [] }, tag := tag }
  let y : FStmt := { s := { line := some (b + 1), range := some r, label := ll.label, compound := 0, pre := x.s.pre }, tag := tag }
  have hpre : ∀ (j : Nat) z, pos ≤ j → a.stmts[j]? = some z → ∀ k ∈ z.s.pre, b + 1 ≤ k := by
    intro j z hj hz k hk
    rw [hast] at hz
    split at hz
    · rw [← Option.some.inj hz] at hk
      simp [x0] at hk
    · obtain ⟨qj, hqj⟩ : ∃ qj, (places 0 fl.lines)[j]? = some qj :=
        ⟨_, List.getElem?_eq_getElem (by rw [← ht.consistent.stmts.length_eq]; exact (List.getElem?_eq_some_iff.mp hz).1)⟩
      obtain ⟨u1, u2, u3⟩ := f2_get ht.prefixes hz hqj
      have hq0 := u2 (by intro hh; rw [hh] at hk; simp at hk)
      have hlater := places_later hq hqj (by omega) hq0
      by_contra hki
      obtain ⟨l0, v1, v2⟩ := (u3 k hk).2 q.line (by omega) hlater
      obtain ⟨A, l, B, e1, e2, e3, _⟩ := places_locate hq
      have : fl.lines[q.line]? = some l := by rw [e2, e1]; simp
      rw [this] at v1
      obtain rfl := Option.some.inj v1
      rw [v2] at e3
      simp at e3
  have hyP : PrefixOk a.lines y ⟨b + 1, r, 0, 1, ll.label⟩ := by
    refine ⟨p1, fun _ => rfl, ?_⟩
    intro k hk
    have h1 := hkb k hk
    refine ⟨by show k < b + 1; omega, ?_⟩
    intro m hm hm'
    have hm'' : m < b + 1 := hm'
    exact (p3 k hk).2 m hm (by omega)
  obtain ⟨t', hold⟩ := insert_tidy ta (pos := pos) (i := b + 1) (ll := ll) (y := y) (r := r) hil hplen hpre hl.stmts
    (by rw [hl.made]) ⟨rfl, rfl, rfl, Or.inr ⟨rfl, rfl⟩, fun _ => rfl⟩ hyP
  have epush : (x.push (b + 1)).s.pre = x.s.pre := by
    show x.s.pre.map (pushPos (b + 1)) = x.s.pre
    conv => rhs; rw [← List.map_id x.s.pre]
    apply List.map_congr_left
    intro k hk
    have := hkb k hk
    simp only [pushPos]
    rw [if_neg (by omega)]
    rfl
  have hlen1 : ((fl.stmts.map (·.push (b + 1))).take pos).length = pos := by rw [List.length_take, List.length_map]; omega
  have hdrop : (fl.stmts.map (·.push (b + 1))).drop pos = x.push (b + 1) :: (fl.stmts.map (·.push (b + 1))).drop (pos + 1) := by
    rw [List.drop_eq_getElem_cons (by rw [List.length_map]; exact hpos)]
    congr 1
    rw [List.getElem_map]
    congr 1
    exact (List.getElem?_eq_some_iff.mp hx).2
  have hast' : (a.ins pos (b + 1) ll y).stmts = (fl.stmts.map (·.push (b + 1))).take pos ++ y :: x0.push (b + 1) ::
      (fl.stmts.map (·.push (b + 1))).drop (pos + 1) := by
    show ((fl.stmts.set pos x0).map (·.push (b + 1))).take pos ++ y :: ((fl.stmts.set pos x0).map (·.push (b + 1))).drop pos = _
    rw [List.map_set, List.take_set_of_le (le_refl _), List.drop_set, if_neg (by omega), Nat.sub_self, hdrop, List.set_cons_zero]
  have hrun : fl.emplaceAfterPrefix pos ll tag = .ok (a.ins pos (b + 1) ll y) := by
    unfold LFile.emplaceAfterPrefix
    rw [if_neg (by rw [hl.stmts]; have := semis_of_init hl.made; simp [this]), LFile.stmtAt_ok hx]
    have hcomp : x.s.compound < 2 := by
      obtain ⟨_, _, _, s4, _⟩ := hstand
      rcases s4 with s4 | s4 <;> omega
    have hbeg : x.prefixEnd = .ok (b + 1) := by unfold FStmt.prefixEnd; rw [hb]
    show (if x.s.pre = [] then fl.emplace pos ll tag else if ¬ x.s.compound < 2 then Except.error Fail.assertion else x.prefixEnd >>= _) = _
    rw [if_neg hne, if_neg (by omega), hbeg]
    show (fl.emplaceAt pos (b + 1) ll tag >>= _) = _
    rw [emplaceAt_ok tag hil hl]
    have hst1 : (fl.ins pos (b + 1) ll y0).stmts = (fl.stmts.map (·.push (b + 1))).take pos ++ y0 :: x.push (b + 1) :: (fl.stmts.map (·.push (b + 1))).drop (pos + 1) := by
      show (fl.stmts.map (·.push (b + 1))).take pos ++ y0 :: (fl.stmts.map (·.push (b + 1))).drop pos = _
      rw [hdrop]
    have g1 : (fl.ins pos (b + 1) ll y0).stmts[pos + 1]? = some (x.push (b + 1)) := by
      rw [hst1, List.getElem?_append_right (by omega), hlen1, show pos + 1 - pos = 0 + 1 by omega]
      rfl
    have g0 : (fl.ins pos (b + 1) ll y0).stmts[pos]? = some y0 := by
      rw [hst1, List.getElem?_append_right (by omega), hlen1, Nat.sub_self]
      rfl
    show ((fl.ins pos (b + 1) ll y0).stmtAt (pos + 1) >>= _) = _
    rw [LFile.stmtAt_ok g1]
    show ((fl.ins pos (b + 1) ll y0).stmtAt pos >>= _) = _
    rw [LFile.stmtAt_ok g0]
    have hend : (x.push (b + 1)).prefixEnd = .ok (b + 1) := by unfold FStmt.prefixEnd; rw [epush, hb]
    show ((x.push (b + 1)).prefixEnd >>= _) = _
    rw [hend]
    show (if b + 1 ≠ b + 1 then Except.error Fail.assertion else Except.ok _) = _
    rw [if_neg (by simp)]
    congr 1
    show LFile.mk _ _ = LFile.mk _ (a.ins pos (b + 1) ll y).stmts
    rw [hast', hst1]
    congr 1
    rw [List.set_append_right _ _ (by omega), hlen1, Nat.sub_self, List.set_cons_zero, List.set_append_right _ _ (by omega), hlen1,
      show pos + 1 - pos = 0 + 1 by omega, List.set_cons_succ, List.set_cons_zero, epush]
    rfl
  have hlcs : (fl.lines.take (b + 1)).length = b + 1 := by rw [List.length_take]; omega
  have hl0 : (a.ins pos (b + 1) ll y).lines = fl.lines.take (b + 1) ++ ll :: fl.lines.drop (b + 1) := rfl
  refine ⟨a.ins pos (b + 1) ll y, fl.lines.take (b + 1), fl.lines.drop (b + 1), y, x0.push (b + 1), hrun, t',
    (List.take_append_drop _ _).symm, rfl, by rw [hlcs]; exact hb, by omega, ?_, ?_, rfl, rfl, rfl, ?_, ?_, ?_, ?_, ?_, ?_⟩
  · rw [hast']
    simp only [List.length_append, List.length_cons, hlen1, List.length_drop, List.length_map]
    omega
  · rw [hast', List.getElem?_append_right (by omega), hlen1, Nat.sub_self]
    rfl
  · apply List.map_congr_left
    intro k hk
    have := hkb k hk
    show (a.ins pos (b + 1) ll y).lines[k]? = _
    rw [hl0, List.getElem?_append_left (by omega), List.getElem?_take, if_pos (by omega)]
  · unfold stmtToks
    show ((fl.lines.take (b + 1) ++ ll :: fl.lines.drop (b + 1))[b + 1]?).map _ = _
    rw [List.getElem?_append_right (by omega), hlcs, Nat.sub_self]
    rfl
  · rw [hast', List.getElem?_append_right (by omega), hlen1, show pos + 1 - pos = 0 + 1 by omega]
    rfl
  · obtain ⟨h1, h2, _, h4⟩ := hold x0 (List.mem_of_getElem? (by rw [hast]; simp : a.stmts[pos]? = some x0))
    exact ⟨h1, h2, rfl, h4⟩
  · rw [hast', List.take_left' hlen1]
    refine f2_of_get (by simp) ?_
    intro j u v hu hv
    rw [← List.map_take, List.getElem?_map, hu] at hv
    rw [← Option.some.inj hv]
    have hj := (List.getElem?_eq_some_iff.mp hu).1
    rw [List.length_take] at hj
    rw [List.getElem?_take, if_pos (by omega)] at hu
    exact hold u (List.mem_of_getElem? (by rw [hast, if_neg (by omega)]; exact hu : a.stmts[j]? = some u))
  · have e : (fl.stmts.map (·.push (b + 1))).take pos ++ y :: x0.push (b + 1) :: (fl.stmts.map (·.push (b + 1))).drop (pos + 1)
        = ((fl.stmts.map (·.push (b + 1))).take pos ++ [y, x0.push (b + 1)]) ++ (fl.stmts.map (·.push (b + 1))).drop (pos + 1) := by simp
    rw [hast', e, List.drop_left' (by rw [List.length_append, hlen1]; rfl)]
    refine f2_of_get (by simp) ?_
    intro j u v hu hv
    rw [← List.map_drop, List.getElem?_map, hu] at hv
    rw [← Option.some.inj hv]
    rw [List.getElem?_drop] at hu
    exact hold u (List.mem_of_getElem? (by rw [hast, if_neg (by omega)]; exact hu : a.stmts[pos + 1 + j]? = some u))

/-- **C64** Without a prefix the new statement goes directly in front. -/
theorem C64_emplace_no_prefix (fl : LFile) (pos : Nat) (x : FStmt) (ll : LLine) (tag : Int)
    (hx : fl.stmts[pos]? = some x) (hp : x.s.pre = []) (hs : ll.semis ≠ -1) (hl : ll.stmts.length = 1) :
    fl.emplaceAfterPrefix pos ll tag = fl.emplace pos ll tag := by
  unfold LFile.emplaceAfterPrefix
  rw [if_neg (by simp [hs, hl]), LFile.stmtAt_ok hx]
  show (if x.s.pre = [] then fl.emplace pos ll tag else _) = _
  rw [if_pos hp]

end FLPR
