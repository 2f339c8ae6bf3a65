import Verif.Procedure.EndProps
import Verif.LogicalFile.StmtEditEx
import Verif.ParsedFile.Props
/-! # C70: examples -/

namespace FLPR
namespace Proc
open PP Reg Spec
open SP (SNode R Exts Strm)

/-- A test of the positions of tokens that are each on one line. -/
def posOk (lay : List FileLine) (ts : List Tok) : Bool :=
  ts.all (fun t => match t.span with
    | none => false
    | some s => s.bl == s.el && decide (0 ≤ s.bl) && decide (0 ≤ s.bc) &&
      (match lay[s.bl.toNat]? with
      | none => false
      | some f => decide (s.bc.toNat ≤ f.main_txt.length) && ((f.main_txt.drop s.bc.toNat).take t.text.length == t.text))) &&
  decide (ts.Pairwise (fun t u => (match t.span, u.span with
    | some s, some s' => decide (s.el < s'.bl ∨ (s.el = s'.bl ∧ s.bc + t.text.length ≤ s'.bc))
    | _, _ => true) = true))

theorem good_of_posOk {lay : List FileLine} {ts : List Tok} (h : posOk lay ts = true) :
    GoodPositions lay ts ∧ ∀ t ∈ ts, OnOneLine t := by
  rw [posOk, Bool.and_eq_true, List.all_eq_true, decide_eq_true_eq] at h
  obtain ⟨h1, h2⟩ := h
  have hone : ∀ t ∈ ts, OnOneLine t := by
    intro t ht s hs
    have := h1 t ht
    rw [hs] at this
    simp only [Bool.and_eq_true, beq_iff_eq] at this
    exact this.1.1.1
  refine ⟨⟨?_, ?_⟩, hone⟩
  · intro t ht
    have := h1 t ht
    cases hs : t.span with
    | none => rw [hs] at this; cases this
    | some s =>
      rw [hs] at this
      simp only [Bool.and_eq_true, beq_iff_eq, decide_eq_true_eq] at this
      obtain ⟨⟨⟨a, b⟩, c⟩, d⟩ := this
      cases hf : lay[s.bl.toNat]? with
      | none => rw [hf] at d; cases d
      | some f =>
        rw [hf] at d
        simp only [Bool.and_eq_true, beq_iff_eq, decide_eq_true_eq] at d
        obtain ⟨bl, bc, el, ec⟩ := s
        simp only at a b c d hf
        subst a
        obtain ⟨bl, rfl⟩ := Int.eq_ofNat_of_zero_le b
        obtain ⟨bc, rfl⟩ := Int.eq_ofNat_of_zero_le c
        exact ⟨_, rfl, bl, bc, bl, ec, f, f, rfl, hf, hf, le_refl _, d.1, fun _ => d.2, fun h => absurd h (lt_irrefl _)⟩
  · refine List.Pairwise.imp_of_mem ?_ h2
    intro t u ht _ hR s s' hs hs'
    rw [hs, hs'] at hR
    simp only [decide_eq_true_eq] at hR
    rcases hR with hR | hR
    · exact .inl hR
    · refine .inr ⟨hR.1, ?_⟩
      rw [endCol, if_pos (hone t ht s hs)]
      exact hR.2

/-- A test of statements without parentheses and brackets. -/
def flatOk (s : Strm) : Bool :=
  decide (s.lo ≤ s.pos) && decide (s.pos ≤ s.hi) && decide (s.hi ≤ s.all.length) &&
  (tagsOf s).all (fun t => (match Registry.isName t with | .ok _ => true | _ => false) && t != Tag.BAD && t != Tag.HOIST) &&
  (tagsOf s).all (fun t => t != Tag.TK_PARENL && t != Tag.TK_PARENR && t != Tag.TK_BRACKETL && t != Tag.TK_BRACKETR)

theorem nested_flat {ts : List Int} (h : ∀ t ∈ ts, Plain t) : WellNested ts := by
  induction ts with
  | nil => exact .nil
  | cons t ts ih => exact .plain (h t (by simp)) (ih (fun u hu => h u (by simp [hu])))

theorem good_of_flat {s : Strm} (h : flatOk s = true) : GoodStmt s := by
  rw [flatOk] at h
  simp only [Bool.and_eq_true, decide_eq_true_eq] at h
  obtain ⟨⟨⟨⟨a, b⟩, c⟩, d⟩, e⟩ := h
  refine ⟨a, b, c, SP.goodTags_of d, 0, Nat.zero_le _, nested_flat ?_⟩
  intro t ht
  have hm : t ∈ tagsOf s := List.mem_of_mem_drop (List.mem_of_mem_take ht)
  have := List.all_eq_true.mp e t hm
  simp only [Bool.and_eq_true, bne_iff_ne, ne_eq] at this
  exact ⟨this.1.1.1, this.1.1.2, this.1.2, this.2⟩

/-- What the parser sees of a file. -/
def viewOf (fl : LFile) : PState := { stmts := fl.stmts.map (fun x => PF.stmtView fl.lines x.s), hi := fl.stmts.length, pos := 0 }

theorem viewOf_full (fl : LFile) : Full (viewOf fl) := ⟨by simp [viewOf], Nat.zero_le _⟩

/-- A test that a file is as the theorems want it, that it has a procedure, and `q` of what is made of it. -/
def procOk (fl : LFile) (tag : Int) (q : POut → PNode → Procd → Bool) : Bool :=
  fl.lines.all (fun l => posOk l.layout l.frags) && noLabels fl && (viewOf fl).stmts.all (fun st => flatOk st.strm) &&
  outIs (run noExts 40 .program (viewOf fl)) (fun o => o.ok && o.tree.any (fun t => (nodesOf t).any (fun n => n.tag == tag &&
    decide ((regionNodes n).flatMap stmtsUnder).Nodup && decide (2 ≤ (stmtsUnder n).length) &&
    match make with
    | .ok p0 => (match ingest p0 n with
      | .ok (true, p) => q o n p
      | _ => false)
    | _ => false)))

theorem of_procOk {fl : LFile} {tag : Int} {q : POut → PNode → Procd → Bool} (h : procOk fl tag q = true) (ht : tag ∈ procTags) :
    ∃ o n p, OfParse noExts (viewOf fl) o n p ∧ n.tag = tag ∧ q o n p = true ∧ noLabels fl = true ∧
      (∀ l ∈ fl.lines, GoodPositions l.layout l.frags) ∧ ∀ l ∈ fl.lines, ∀ t ∈ l.frags, NameTag t.token → OnOneLine t := by
  rw [procOk, Bool.and_eq_true, Bool.and_eq_true, Bool.and_eq_true, List.all_eq_true, List.all_eq_true] at h
  obtain ⟨⟨⟨h1, h2⟩, h3⟩, h4⟩ := h
  obtain ⟨o, h5, h6⟩ := returns_of 40 h4
  simp only [Bool.and_eq_true, beq_iff_eq, Option.any_eq_true, List.any_eq_true, decide_eq_true_eq] at h6
  obtain ⟨h6, t, h7, n, h8, ⟨⟨h9, h10⟩, h11⟩, h12⟩ := h6
  have hp : n.tag ∈ procTags := by rw [h9]; exact ht
  obtain ⟨p0, p, g1, g2, g3⟩ := (C41_parsed_partial noExts SP.forward_none needToken_none .program _ (viewOf_full fl) o h5 h6 t h7 n h8 hp).2
    h10 (.inr h11)
  rw [g1] at h12
  simp only [g2] at h12
  refine ⟨o, n, p, ⟨SP.forward_none, needToken_none, viewOf_full fl, ⟨_, h5⟩, h6, ⟨t, h7, h8⟩, hp, ⟨p0, g2⟩, g3, ?_⟩, h9, h12, h2,
    fun l hl => (good_of_posOk (h1 l hl)).1, fun l hl t ht _ => (good_of_posOk (h1 l hl)).2 t ht⟩
  intro k _ j st _ hst
  exact good_of_flat (h3 st (List.mem_of_getElem? hst))

theorem file_of {raws : List String} {q : LFile → Bool} (h : (fileOf raws).map (Option.map q) = .ok (some true)) :
    ∃ fl, fileOf raws = .ok (some fl) ∧ q fl = true ∧ Tidy fl ∧ ∀ l ∈ fl.lines, LabelRead l := by
  cases hf : fileOf raws with
  | error e => rw [hf] at h; cases h
  | ok o =>
    cases o with
    | none => rw [hf] at h; cases h
    | some fl =>
      rw [hf] at h
      simp only [Except.map, Option.map_some, Except.ok.injEq, Option.some.injEq] at h
      exact ⟨fl, rfl, h, fileOf_tidy hf⟩

def printed (fl : LFile) : List String := fl.lines.flatMap (fun l => l.layout.map (fun f => String.ofList f.print))

/-- C70 applies to a subroutine that ends with `end`: the statement is completed. -/
example : ∃ fl o n p, fileOf ["recursive subroutine foo ! a", "x=1", "end"] = .ok (some fl) ∧ Tidy fl ∧ fl.stmts.length = (viewOf fl).stmts.length ∧
    (∀ j, p.stmtAt PROC_END = .ok j → LabelSafe fl j) ∧ OfParse noExts (viewOf fl) o n p ∧ n.tag = Tag.PG_SUBROUTINE_SUBPROGRAM ∧
    ∃ fl' st', p.completeEnd {} o.s fl = .ok (true, fl', { p with dirty := true }, st') ∧
      printed fl' = ["recursive subroutine foo ! a", "x=1", "end subroutine foo"] := by
  obtain ⟨fl, h1, h2, h3, h4⟩ := file_of (raws := ["recursive subroutine foo ! a", "x=1", "end"])
    (q := fun fl => procOk fl Tag.PG_SUBROUTINE_SUBPROGRAM (fun o _ p => match p.completeEnd {} o.s fl with
      | .ok v => v.1 && (printed v.2.1 == ["recursive subroutine foo ! a", "x=1", "end subroutine foo"])
      | .error _ => false)) (by decide +kernel)
  obtain ⟨o, n, p, k1, k2, k3, k4, _, _⟩ := of_procOk h2 (by decide)
  have hl : fl.stmts.length = (viewOf fl).stmts.length := by simp [viewOf]
  have hs := fun j => labelSafe_of h4 k4 j
  cases hc : p.completeEnd {} o.s fl with
  | error e => rw [hc] at k3; cases k3
  | ok v =>
    rw [hc] at k3
    simp only [Bool.and_eq_true, beq_iff_eq] at k3
    obtain ⟨b, fl', p', st'⟩ := v
    obtain ⟨j, e, word, kw, name, w, _, _, _, _, _, c1, c2⟩ :=
      C70_complete_partial _ _ o n p k1 fl h3 hl (fun j _ => hs j) {}
    have hw : w ≠ [] := by
      intro hw
      have := c1 hw
      rw [hc] at this
      simp only [Except.ok.injEq, Prod.mk.injEq] at this
      exact absurd (this.1.symm.trans k3.1) (by decide)
    obtain ⟨rfl, rfl, _⟩ := c2 b fl' p' st' hw hc
    exact ⟨fl, o, n, p, h1, h3, hl, fun j _ => hs j, k1, k2, fl', st', hc, k3.2⟩

/-- C70 applies to a subroutine that ends with its name: the name changes in both statements. -/
example : ∃ fl o n p, fileOf ["recursive subroutine foo ! a", "foo=1", "end subroutine foo"] = .ok (some fl) ∧ Tidy fl ∧ Linked (viewOf fl) fl ∧
    OfParse noExts (viewOf fl) o n p ∧ n.tag = Tag.PG_SUBROUTINE_SUBPROGRAM ∧ p.name o.s ≠ .ok "bar".toList ∧
    ∃ fl', p.rename (fun _ => .error .exc) o.s fl "bar".toList = .ok (true, fl', { p with dirty := true }) ∧
      p.name (relink o.s fl') = .ok "bar".toList ∧ printed fl' = ["recursive subroutine bar ! a", "foo=1", "end subroutine bar"] := by
  obtain ⟨fl, h1, h2, h3, h4⟩ := file_of (raws := ["recursive subroutine foo ! a", "foo=1", "end subroutine foo"])
    (q := fun fl => procOk fl Tag.PG_SUBROUTINE_SUBPROGRAM (fun o _ p => decide (p.headless = .ok false) && decide (p.name o.s ≠ .ok "bar".toList) &&
      match p.rename (fun _ => .error .exc) o.s fl "bar".toList with
      | .ok v => printed v.2.1 == ["recursive subroutine bar ! a", "foo=1", "end subroutine bar"]
      | .error _ => false)) (by decide +kernel)
  obtain ⟨o, n, p, k1, k2, k3, k4, k5, k6⟩ := of_procOk h2 (by decide)
  simp only [Bool.and_eq_true, decide_eq_true_eq] at k3
  obtain ⟨⟨k3, k7⟩, k8⟩ := k3
  obtain ⟨_, fl', _, _, _, _, _, _, _, _, c1, _, _, _, c2⟩ := C70_rename_partial _ _ o n p k1 fl h3 rfl k5 k6 k3 "bar".toList k7 (fun _ => .error .exc)
  rw [c1] at k8
  simp only [beq_iff_eq] at k8
  exact ⟨fl, o, n, p, h1, h3, rfl, k1, k2, k7, fl', c1, c2, k8⟩

/-- A main program without a first statement: `C70_violation_headless` applies, and the outcome is undefined behaviour. -/
example : ∃ fl o n p, fileOf ["x=1", "end"] = .ok (some fl) ∧ OfParse noExts (viewOf fl) o n p ∧ p.headless = .ok true ∧
    p.rename (fun t => do .ok (← LLine.ofFree {} t).1) o.s fl "bar".toList = .error .ub := by
  obtain ⟨fl, h1, h2, _, _⟩ := file_of (raws := ["x=1", "end"])
    (q := fun fl => procOk fl Tag.PG_MAIN_PROGRAM (fun o _ p => decide (p.headless = .ok true) &&
      match p.rename (fun t => do .ok (← LLine.ofFree {} t).1) o.s fl "bar".toList with
      | .error .ub => true
      | _ => false)) (by decide +kernel)
  obtain ⟨o, n, p, k1, _, k3, _, _, _⟩ := of_procOk h2 (by decide)
  simp only [Bool.and_eq_true, decide_eq_true_eq] at k3
  refine ⟨fl, o, n, p, h1, k1, k3.1, ?_⟩
  have k4 := k3.2
  split at k4
  · assumption
  · cases k4

end Proc
end FLPR
