import Verif.LogicalFile.StmtEditLabel
/-!
# Where a statement stands after it has been isolated (C64)
-/

namespace FLPR
open Spec

theorem place_at (A : List LLine) (l : LLine) (B : List LLine) {idx : Nat} {r : Nat × Nat}
    (hr : l.stmts[idx]? = some r) :
    (places 0 (A ++ l :: B))[(places 0 A).length + idx]? =
      some ⟨A.length, r, idx, l.stmts.length, if idx = 0 then l.label else 0⟩ := by
  have hlt := (List.getElem?_eq_some_iff.mp hr).1
  rw [places_append, List.getElem?_append_right (by omega)]
  simp only [places, Nat.zero_add]
  rw [List.getElem?_append_left (by rw [linePlaces_length]; omega), linePlaces_get,
    show (places 0 A).length + idx - (places 0 A).length = idx by omega, hr]
  simp

theorem initStmtsGo_begins (ts : List Tok) (k b : Nat) (hb : b < k) :
    ∃ r rs, (initStmtsGo k (some b) ts).1 = r :: rs ∧ r.1 = b := by
  induction ts generalizing k with
  | nil =>
    refine ⟨(b, k), [], ?_, rfl⟩
    simp only [initStmtsGo]
    rw [if_pos (by omega)]
  | cons t ts ih =>
    simp only [initStmtsGo, Option.getD_some]
    split
    · rw [if_pos (by omega)]
      exact ⟨(b, k), _, rfl, rfl⟩
    · exact ih (k + 1) (by omega)

/-- The first statement begins with the first token, if that is no semicolon. -/
theorem stmts_begin {l : LLine} {t : Tok} (ht : l.frags.head? = some t) (hn : t.token ≠ Tag.TK_SEMICOLON)
    {r : Nat × Nat} (hr : l.initStmts.stmts[0]? = some r) : r.1 = 0 := by
  have hs : t.isSemi = false := by
    cases h : t.isSemi with
    | false => rfl
    | true => exact absurd ((isSemi_iff t).mp h) hn
  cases hf : l.frags with
  | nil => rw [hf] at ht; simp at ht
  | cons u us =>
    rw [hf] at ht
    obtain rfl := Option.some.inj ht
    have e : l.initStmts.stmts = (initStmtsGo 1 (some 0) us).1 := by
      show (initStmtsGo 0 none l.frags).1 = _
      rw [hf]
      simp [initStmtsGo, hs]
    rw [e] at hr
    obtain ⟨r', rs, h1, h2⟩ := initStmtsGo_begins us 1 0 (by omega)
    rw [h1] at hr
    rw [← Option.some.inj hr]
    exact h2

/-- On a single physical line, the new line begins with a token that is no semicolon. -/
theorem splitAfter_begin {l l1 n1 : LLine} {i : Nat} (h : l.splitAfter i {} = .ok (true, l1, n1))
    (h1 : l.layout.length = 1) : ∃ t, n1.frags.head? = some t ∧ t.token ≠ Tag.TK_SEMICOLON := by
  cases splitAfter_outcome h with
  | between hs hb hf hu hsu =>
    exact absurd (List.drop_eq_nil_iff.mpr (by omega)) hb
  | inside hs hu hsu h1 h2 =>
    rename_i t s k f f0 semis here later u su f1 f2
    cases here with
    | nil => simp at hu
    | cons v vs =>
      have := hs.notSemi v rfl
      refine ⟨_, rfl, ?_⟩
      have e1 : ∀ (c : Int) (w : Tok), (w.shiftLine c).token = w.token := by
        intro c w; rfl
      have e2 : ∀ (c : Int) (w : Tok), (w.shiftCol c).token = w.token := by
        intro c w; rfl
      rw [e1, e1, e2]
      exact this

theorem later_begin {l : LLine} (hs : l.stmts = l.initStmts.stmts) {idx : Nat} {r : Nat × Nat}
    (hr : l.stmts[idx]? = some r) (h0 : 0 < idx) : 0 < r.1 ∧ some r ≠ l.stmts.head? := by
  obtain ⟨hpw, _⟩ := C16_ranges l
  rw [← hs] at hpw
  have hlt := List.getElem?_eq_some_iff.mp hr
  have hl0 := hlt.1
  have h1 := (List.pairwise_iff_getElem.mp hpw) 0 idx (by omega) hlt.1 h0
  rw [hlt.2] at h1
  refine ⟨by omega, ?_⟩
  rw [List.head?_eq_getElem?, List.getElem?_eq_getElem (by omega)]
  intro hh
  have e := Option.some.inj hh
  obtain ⟨_, hmr⟩ := C16_ranges l
  rw [← hs] at hmr
  have := ((hmr _).mp (List.mem_of_getElem? hr)).1
  rw [← e] at h1
  omega

/-- `split_compound_before` a statement: its new place. -/
theorem split_place {fl fa : LFile} {pos : Nat} {b : Bool} {q : Place} {l : LLine} (ht : Tidy fl)
    (h : fl.splitBefore pos = .ok (b, fa)) (hq : (places 0 fl.lines)[pos]? = some q) (hl : fl.lines[q.line]? = some l) :
    ∃ qa la, (places 0 fa.lines)[pos]? = some qa ∧ qa.idx = 0 ∧ fa.lines[qa.line]? = some la ∧
      (LabelRead l → (some q.range = l.stmts.head? ∨ ∀ f ∈ l.layout, f.bits.label = false) → LabelRead la) ∧
      (q.range.1 = 0 → qa.range.1 = 0) ∧
      (some q.range ≠ l.stmts.head? → l.layout.length = 1 → qa.range.1 = 0) := by
  cases b with
  | false =>
    obtain ⟨rfl, c2⟩ := C20_file_false fl fa pos ht.consistent h
    refine ⟨q, l, hq, c2 q hq, hl, fun h _ => h, fun h => h, ?_⟩
    intro hh
    obtain ⟨A, l', B, e1, e2, e3, e4, e5, e6⟩ := places_locate hq
    rw [c2 q hq] at e6
    have : fa.lines[q.line]? = some l' := by rw [e2, e1]; simp
    rw [this] at hl
    obtain rfl := Option.some.inj hl
    rw [List.head?_eq_getElem?, e6] at hh
    exact absurd rfl hh
  | true =>
    obtain ⟨A, l', B, l1, n1, idx, r, hd⟩ := splitBefore_done ht.consistent h
    obtain ⟨r', hr'⟩ : ∃ r', l'.stmts[idx + 1]? = some r' := ⟨_, List.getElem?_eq_getElem hd.num⟩
    have h1 := place_at A l' B hr'
    rw [← hd.lines, ← hd.at_, hq] at h1
    obtain rfl := Option.some.inj h1
    have hl2 : fl.lines[A.length]? = some l' := by rw [hd.lines]; simp
    have hl3 : fl.lines[A.length]? = some l := hl
    rw [hl2] at hl3
    obtain rfl := Option.some.inj hl3
    have hls : l'.stmts = l'.initStmts.stmts := ht.consistent.lines l' (List.mem_of_getElem? hl2)
    obtain ⟨k1, k2⟩ := later_begin hls hr' (by omega)
    have hright := hd.right
    have hnum := hd.num
    obtain ⟨rn, hrn⟩ : ∃ rn, n1.initStmts.stmts[0]? = some rn := ⟨_, List.getElem?_eq_getElem (by omega)⟩
    have hlen : (places 0 (A ++ [l1.initStmts])).length = pos := by
      rw [places_append]
      simp only [places, Nat.zero_add, List.append_nil, List.length_append, linePlaces_length, hd.left, List.length_take]
      rw [hd.at_]
      omega
    have h2 := place_at (A ++ [l1.initStmts]) n1.initStmts B hrn
    rw [hlen, List.append_assoc, List.singleton_append, ← hd.lines'] at h2
    refine ⟨_, n1.initStmts, h2, rfl, ?_, ?_, ?_, ?_⟩
    · rw [hd.lines']; simp
    · rintro _ (hh | hh)
      · exact absurd hh k2
      · exact (splitAfter_new hd.split hh : LabelRead n1)
    · intro hh
      dsimp only at hh
      omega
    · intro _ h1
      obtain ⟨t, t1, t2⟩ := splitAfter_begin hd.split h1
      exact stmts_begin t1 t2 hrn

/-- `split_compound_before` the next statement: the place of this one. -/
theorem split_place_next {fl fa : LFile} {pos : Nat} {b : Bool} {q : Place} {l : LLine} (ht : Tidy fl)
    (h : fl.splitBefore (pos + 1) = .ok (b, fa)) (hq : (places 0 fl.lines)[pos]? = some q) (hl : fl.lines[q.line]? = some l) :
    ∃ qa la, (places 0 fa.lines)[pos]? = some qa ∧ fa.lines[qa.line]? = some la ∧
      (LabelRead l → LabelRead la) ∧ qa.range = q.range := by
  cases b with
  | false =>
    obtain ⟨rfl, _⟩ := C20_file_false fl fa (pos + 1) ht.consistent h
    exact ⟨q, l, hq, hl, fun h => h, rfl⟩
  | true =>
    obtain ⟨A, l', B, l1, n1, idx, r, hd⟩ := splitBefore_done ht.consistent h
    have hat := hd.at_
    have hpe : pos = (places 0 A).length + idx := by omega
    have h1 := place_at A l' B hd.range
    rw [← hd.lines, ← hpe, hq] at h1
    obtain rfl := Option.some.inj h1
    have hl2 : fl.lines[A.length]? = some l' := by rw [hd.lines]; simp
    have hl3 : fl.lines[A.length]? = some l := hl
    rw [hl2] at hl3
    obtain rfl := Option.some.inj hl3
    have hr1 : l1.initStmts.stmts[idx]? = some r := by
      rw [hd.left, List.getElem?_take, if_pos (by omega)]; exact hd.range
    have h2 := place_at A l1.initStmts (n1.initStmts :: B) hr1
    rw [← hd.lines', ← hpe] at h2
    refine ⟨_, l1.initStmts, h2, ?_, fun h => (splitAfter_keeps hd.split h : LabelRead l1), rfl⟩
    rw [hd.lines']; simp

/-- A statement that has been isolated: its line, its label and where its tokens begin. -/
theorem isolate_place {fl a : LFile} {pos p : Nat} {b : Bool} {x : FStmt} {r0 : Nat × Nat} {l : LLine} (ht : Tidy fl)
    (h : fl.isolate pos = .ok (b, a)) (hx : fl.stmts[pos]? = some x) (hp : x.s.line = some p)
    (hr0 : x.s.range = some r0) (hl : fl.lines[p]? = some l) :
    ∃ xa pa la r, a.stmts[pos]? = some xa ∧ xa.s.line = some pa ∧ a.lines[pa]? = some la ∧ la.stmts = [r] ∧
      xa.s.range = some r ∧ SameStmt fl a x xa ∧
      (places 0 a.lines)[pos]? = some ⟨pa, r, 0, 1, la.label⟩ ∧
      (LabelRead l → (some r0 = l.stmts.head? ∨ ∀ f ∈ l.layout, f.bits.label = false) → LabelRead la) ∧
      (r0.1 = 0 → r.1 = 0) ∧ (some r0 ≠ l.stmts.head? → l.layout.length = 1 → r.1 = 0) := by
  obtain ⟨c1, c2, c3, _⟩ := C20_isolate fl a pos b ht.consistent h
  obtain ⟨xa, pa, la, r, d1, d2, d3, d4, d5⟩ := c3
  have hta := isolate_tidy ht h
  obtain ⟨q, hq⟩ : ∃ q, (places 0 fl.lines)[pos]? = some q :=
    ⟨_, List.getElem?_eq_getElem (by rw [← ht.consistent.stmts.length_eq]; exact (List.getElem?_eq_some_iff.mp hx).1)⟩
  obtain ⟨s1, s2, _⟩ := f2_get ht.consistent.stmts hx hq
  have e1 : q.line = p := by rw [hp] at s1; exact (Option.some.inj s1).symm
  have e2 : q.range = r0 := by rw [hr0] at s2; exact (Option.some.inj s2).symm
  have key : ∃ qa la', (places 0 a.lines)[pos]? = some qa ∧ a.lines[qa.line]? = some la' ∧
      (LabelRead l → (some r0 = l.stmts.head? ∨ ∀ f ∈ l.layout, f.bits.label = false) → LabelRead la') ∧
      (r0.1 = 0 → qa.range.1 = 0) ∧ (some r0 ≠ l.stmts.head? → l.layout.length = 1 → qa.range.1 = 0) := by
    unfold LFile.isolate at h
    rbind h with f1 hf1
    split at h
    · simp at h
    obtain ⟨b1, f1⟩ := f1
    obtain ⟨q1, l1, k1, k2, k3, k4, k5, k6⟩ := split_place ht hf1 hq (by rw [e1]; exact hl)
    rw [e2] at k4 k5 k6
    split at h
    · rbind h with f2 hf2
      obtain ⟨b2, f2⟩ := f2
      simp only [Except.ok.injEq, Prod.mk.injEq] at h
      obtain ⟨_, rfl⟩ := h
      obtain ⟨q2, l2, m1, m2, m3, m4⟩ := split_place_next (split_tidy ht hf1).1 hf2 k1 k3
      exact ⟨q2, l2, m1, m2, fun h h' => m3 (k4 h h'), by rw [m4]; exact k5, by rw [m4]; exact k6⟩
    · simp only [Except.ok.injEq, Prod.mk.injEq] at h
      obtain ⟨_, rfl⟩ := h
      exact ⟨q1, l1, k1, k3, k4, k5, k6⟩
  obtain ⟨qa, la', m1, m2, m3, m4, m5⟩ := key
  obtain ⟨t1, t2, _⟩ := f2_get hta.consistent.stmts d1 m1
  have f1 : qa.line = pa := by rw [d2] at t1; exact (Option.some.inj t1).symm
  have f2 : qa.range = r := by rw [d5] at t2; exact (Option.some.inj t2).symm
  rw [f1, d3] at m2
  obtain rfl := Option.some.inj m2
  rw [f2] at m4 m5
  refine ⟨xa, pa, la, r, d1, d2, d3, d4, d5, f2_get c2 hx d1, ?_, m3, m4, m5⟩
  obtain ⟨A, l', B, g1, g2, g3, g4, g5, g6⟩ := places_locate m1
  have : a.lines[pa]? = some l' := by rw [← f1, g2, g1]; simp
  rw [d3] at this
  obtain rfl := Option.some.inj this
  have h0 : qa.idx = 0 := by rw [d4] at g3; simpa using g3
  have hn : qa.num = 1 := by rw [g5, d4]; rfl
  rw [m1]
  have hlab : qa.label = la.label := by
    have hs : la.stmts[0]? = some r := by rw [d4]; rfl
    have := place_at A la B hs
    rw [← g1, show (places 0 A).length + 0 = pos by omega, m1] at this
    rw [Option.some.inj this]
    rfl
  obtain ⟨ql, qr, qi, qn, qb⟩ := qa
  simp only at f1 f2 h0 hn hlab
  rw [f1, f2, h0, hn, hlab]

end FLPR
