import Verif.Indent.RereadOf
import Verif.Indent.RereadComment
import Verif.Indent.Props
import Verif.LogicalFile.ConvertFile
/-!
# Reading an indented free-format file again (C74): the physical lines of the file
-/

namespace FLPR
namespace Spec

/-- A physical line that stays what it is when it is moved; `later` if it is not the first of its logical line.
A Fortran line does not begin with `#`, is not a label alone, has a blank in front of a trailing comment and, if it
continues a statement without an ampersand in front, does not begin in the first column.  A comment has no directive
behind further blanks. -/
structure SteadyLine (later : Bool) (f : FileLine) : Prop where
  hash : f.isFortran = true → f.main_txt.head? ≠ some '#'
  label : f.isFortran = true → f.bits.label = true → f.main_txt ≠ []
  trail : f.isFortran = true → '!' ∈ f.right_txt → f.right_space ≠ []
  gap : f.isFortran = true → later = true → f.bits.continuation = false → f.left_space ≠ []
  mark : f.bits.comment = true → ∀ P t, f.left_txt = P ++ '!' :: t → (∀ x ∈ P, isBlankChar x = true) → ¬ HiddenMark t

/-- The physical lines of a logical line stay what they are. -/
def SteadyLayout : List FileLine → Prop
  | [] => True
  | f :: fs => SteadyLine false f ∧ ∀ g ∈ fs, SteadyLine true g

end Spec
open Spec

/-! ### Moving, seen from one line -/

/-- `f'` is `f` after any number of moves. -/
structure Shift (later : Bool) (f f' : FileLine) : Prop where
  fortran : ∀ pd pc, LineOk pd pc f → LineOk pd pc f' ∧ SameText f f' ∧
      (f.right_space ≠ [] → f'.right_space ≠ []) ∧
      (f.right_space = [] → '!' ∉ f.right_txt → f'.right_space = []) ∧
      (f.bits.continuation = true → f'.left_space = [] ∧ f.left_space = []) ∧
      (later = true → f.bits.continuation = false → f.left_space ≠ [] → f'.left_space ≠ [])
  comment : ∀ pc, CommentOk pc f → CommentOk pc f' ∧ f'.bits = f.bits ∧ f'.linenum = f.linenum
  other : f.isFortran = false → f.bits.comment = false → f' = f

theorem CommentOk.flags {pc : Bool} {f : FileLine} (h : CommentOk pc f) : f.isFortran = false ∧ f.bits.comment = true := by
  unfold FileLine.isFortran FileLine.isTrivial
  rw [h.bits]
  exact ⟨rfl, rfl⟩

theorem Shift.refl (b : Bool) (f : FileLine) : Shift b f f where
  fortran pd pc h := by
    refine ⟨h, .refl _, id, fun h _ => h, fun hc => ?_, fun _ _ h => h⟩
    have := h.left
    generalize hb : ({ f.bits with continued := false } : Bits) = B at this
    have e1 : f.bits.continuation = B.continuation := by rw [← hb]
    rw [e1] at hc
    generalize f.left_txt = lt, f.left_space = ls, f.main_txt = m at this
    cases this <;> first | exact ⟨rfl, rfl⟩ | cases hc
  comment pc h := ⟨h, rfl, rfl⟩
  other _ _ := rfl

theorem Shift.trans {b : Bool} {f g h : FileLine} (x : Shift b f g) (y : Shift b g h) : Shift b f h where
  fortran pd pc hf := by
    obtain ⟨a1, a2, a3, a4, a5, a6⟩ := x.fortran pd pc hf
    obtain ⟨b1, b2, b3, b4, b5, b6⟩ := y.fortran pd pc a1
    refine ⟨b1, a2.trans b2, fun hr => b3 (a3 hr), fun hr hb => b4 (a4 hr hb) (by rw [a2.right]; exact hb),
      fun hc => ⟨(b5 (by rw [a2.bits]; exact hc)).1, (a5 hc).2⟩, fun hl hc hs => b6 hl (by rw [a2.bits]; exact hc) (a6 hl hc hs)⟩
  comment pc hf := by
    obtain ⟨a1, a2, a3⟩ := x.comment pc hf
    obtain ⟨b1, b2, b3⟩ := y.comment pc a1
    exact ⟨b1, b2.trans a2, b3.trans a3⟩
  other h1 h2 := by
    have := x.other h1 h2
    subst this
    exact y.other h1 h2

theorem Shift.weak {f f' : FileLine} (h : Shift true f f') : Shift false f f' where
  fortran pd pc hf := by
    obtain ⟨a1, a2, a3, a4, a5, _⟩ := h.fortran pd pc hf
    exact ⟨a1, a2, a3, a4, a5, fun h => (by cases h)⟩
  comment := h.comment
  other := h.other

theorem shift_move {b later : Bool} {f f' : FileLine} {n : Int} (hn : 0 ≤ n) (hp : later = true → f.isFortran = true → 0 < n)
    (h : Ind.setLeading f n = .ok (f', b)) : Shift later f f' := by
  unfold Ind.setLeading at h
  rw [if_pos hn] at h
  refine ⟨fun pd pc hf => ?_, fun pc hf => hf.moved h, fun h1 h2 => ?_⟩
  · obtain ⟨a1, a2, a3, a4, a5, a6⟩ := hf.moved h
    refine ⟨a1, a2, a3, a4, a5, fun hl hc hs => a6 hc (fun _ => ?_) hs⟩
    have := hp hl hf.fortran.1
    omega
  · unfold FileLine.setLeadingSpaces at h
    rw [h1, h2] at h
    simp only [Bool.false_eq_true, if_false, Except.ok.injEq, Prod.mk.injEq] at h
    exact h.1.symm

/-- The physical lines of a logical line after any number of moves. -/
inductive ShiftAll : List FileLine → List FileLine → Prop
  | nil : ShiftAll [] []
  | cons {f f' : FileLine} {fs fs' : List FileLine} : Shift false f f' → List.Forall₂ (Shift true) fs fs' → ShiftAll (f :: fs) (f' :: fs')

theorem forall2_refl {α : Type} {R : α → α → Prop} (h : ∀ a, R a a) : ∀ l : List α, List.Forall₂ R l l
  | [] => .nil
  | a :: l => .cons (h a) (forall2_refl h l)

theorem forall2_trans {α : Type} {R : α → α → Prop} (h : ∀ a b c, R a b → R b c → R a c) : ∀ {l m n : List α},
    List.Forall₂ R l m → List.Forall₂ R m n → List.Forall₂ R l n
  | _, _, _, .nil, .nil => .nil
  | _, _, _, .cons a as, .cons b bs => .cons (h _ _ _ a b) (forall2_trans h as bs)

theorem ShiftAll.refl : ∀ l : List FileLine, ShiftAll l l
  | [] => .nil
  | f :: fs => .cons (.refl _ f) (forall2_refl (Shift.refl true) fs)

theorem ShiftAll.trans {a b c : List FileLine} (x : ShiftAll a b) (y : ShiftAll b c) : ShiftAll a c := by
  cases x with
  | nil => exact y
  | cons h1 h2 => cases y with | cons h3 h4 => exact .cons (h1.trans h3) (forall2_trans (R := Shift true) (fun _ _ _ p q => p.trans q) h2 h4)

theorem ShiftAll.weak {a b : List FileLine} (x : ShiftAll a b) : List.Forall₂ (Shift false) a b := by
  cases x with
  | nil => exact .nil
  | cons h1 h2 => exact .cons h1 (h2.imp (fun _ _ h => h.weak))

theorem indented_shift {cont n : Int} {l l' : LLine} (hc : 0 < cont) (hn : 0 ≤ n) (hs : l.suppress = false)
    (h : IndentedBy cont n l l') : ShiftAll l.layout l'.layout := by
  obtain ⟨_, f, f', rs, rs', h1, h2, ⟨b, h3⟩, h4⟩ := h
  rw [h1, h2]
  refine .cons (shift_move hn (fun h => (by cases h)) h3) ?_
  have hmem : ∀ a ∈ rs, a.isFortran = true → l.hasFortran = true := by
    intro a ha hf
    unfold LLine.hasFortran
    rw [hs, h1]
    simp only [Bool.not_false, Bool.true_and, List.any_eq_true]
    exact ⟨a, by simp [ha], hf⟩
  generalize hm : (n + if l.hasFortran = true then cont else 0) = m at h4
  have h0 : 0 ≤ m := by rw [← hm]; split <;> omega
  have hp : ∀ a ∈ rs, a.isFortran = true → 0 < m := by
    intro a ha hf
    rw [← hm, if_pos (hmem a ha hf)]; omega
  clear hm hmem h1 h2
  induction h4 with
  | nil => exact .nil
  | cons hx _ ih =>
    obtain ⟨b, hx⟩ := hx
    exact .cons (shift_move h0 (fun _ hf => hp _ (by simp) hf) hx) (ih (fun a ha => hp a (by simp [ha])))

theorem indentedAll_shift {cont : Int} {ns : List Int} {l l' : LLine} (hc : 0 < cont) (h : IndentedByAll cont ns l l') :
    (∀ n ∈ ns, 0 ≤ n) → l.suppress = false → ShiftAll l.layout l'.layout ∧ l' = { l with layout := l'.layout } := by
  induction h with
  | nil => intro _ _; exact ⟨.refl _, rfl⟩
  | @cons n ns l l1 l2 hi _ ih =>
    intro hn hs
    have e := hi.1
    have hs1 : l1.suppress = false := by rw [e]; exact hs
    obtain ⟨h1, h2⟩ := ih (fun m hm => hn m (by simp [hm])) hs1
    refine ⟨(indented_shift hc (hn n (by simp)) hs hi).trans h1, ?_⟩
    rw [h2, e]

/-! ### The chain of lines -/

/-- Where the analysis of a file stands: the number of the next line, the open delimiter, whether the last line is
continued, whether this is in a literal block. -/
structure Now where
  ln : Nat
  pd : Char
  pc : Bool
  lit : Bool

/-- Each of the lines is what is read of its own text. -/
inductive Chain : Now → List FileLine → Now → Prop
  | nil {s} : Chain s [] s
  | cons {s e : Now} {f : FileLine} {fs : List FileLine} {lit' : Bool} :
      analyzeFree s.ln f.print s.pd s.pc s.lit = .ok (f, lit') → validDelim s.pd = true →
      Chain ⟨s.ln + 1, f.open_delim, f.bits.continued, lit'⟩ fs e → Chain s (f :: fs) e

theorem chain_of_all : ∀ {raws : List Str} {ln : Nat} {pd : Char} {pc lit : Bool} {fl : List FileLine}, validDelim pd = true →
    analyzeAllFree ln pd pc lit raws = .ok (some fl) → ∃ e, Chain ⟨ln, pd, pc, lit⟩ fl e
  | [], ln, pd, pc, lit, fl, _, h => by
    simp [analyzeAllFree] at h
    subst h
    exact ⟨_, .nil⟩
  | r :: rs, ln, pd, pc, lit, fl, hd, h => by
    unfold analyzeAllFree at h
    split at h
    · simp at h
    · simp at h
    · rename_i f lit' hf
      rbind h with o ho
      cases o with
      | none => simp at h
      | some fs =>
        simp at h
        subst h
        obtain ⟨e, he⟩ := chain_of_all (analyzeFree_misc hf).2.2 ho
        have hp := C01_free_roundtrip _ _ _ _ _ _ _ hf
        exact ⟨e, .cons (by rw [hp]; exact hf) hd he⟩

theorem all_of_chain {s e : Now} {fl : List FileLine} (h : Chain s fl e) :
    analyzeAllFree s.ln s.pd s.pc s.lit (fl.map FileLine.print) = .ok (some fl) := by
  induction h with
  | nil => rfl
  | cons h1 _ _ ih =>
    rw [List.map_cons]
    unfold analyzeAllFree
    rw [h1]
    dsimp only at ih ⊢
    rw [ih]
    rfl

theorem Chain.append {s m e : Now} {a b : List FileLine} (x : Chain s a m) (y : Chain m b e) : Chain s (a ++ b) e := by
  induction x with
  | nil => exact y
  | cons h1 h3 _ ih => exact .cons h1 h3 (ih y)

theorem Chain.split : ∀ {a : List FileLine} {s e : Now} {b : List FileLine}, Chain s (a ++ b) e → ∃ m, Chain s a m ∧ Chain m b e
  | [], s, e, b, h => ⟨s, .nil, h⟩
  | f :: a, s, e, b, h => by
    cases h with
    | cons h1 h3 h4 =>
      obtain ⟨m, k1, k2⟩ := Chain.split h4
      exact ⟨m, .cons h1 h3 k1, k2⟩

theorem Chain.free {s e : Now} {fl : List FileLine} (h : Chain s fl e) : ∀ f ∈ fl, f.bits.fixed_format = false := by
  induction h with
  | nil => simp
  | cons h1 _ _ ih =>
    intro f hf
    rcases List.mem_cons.mp hf with rfl | hf
    · exact (analyzeFree_misc h1).2.1
    · exact ih f hf

/-- What the grouping of lines depends on. -/
def SameKind (f f' : FileLine) : Prop := f'.bits = f.bits ∧ f'.linenum = f.linenum ∧ f'.open_delim = f.open_delim

theorem SameKind.refl (f : FileLine) : SameKind f f := ⟨rfl, rfl, rfl⟩

theorem fortran_lit {ln : Int} {raw : Str} {pd : Char} {pc lit lit' : Bool} {f : FileLine}
    (h : analyzeFree ln raw pd pc lit = .ok (f, lit')) (hf : f.isFortran = true) : lit = false ∧ lit' = false := by
  rcases analyzeFree_cases h with ⟨h1, rfl, _⟩ | ⟨h1, h2, rfl, _⟩ | ⟨c0, rest, h1, hb, h⟩
  · revert hf; simp [mkLeft, FileLine.isFortran, FileLine.isTrivial]
  · revert hf; simp [mkLeft, FileLine.isFortran, FileLine.isTrivial]
  · refine ⟨h1, ?_⟩
    rcases h with ⟨_, rfl, e⟩ | ⟨_, _, rfl, e⟩ | ⟨_, h2, h⟩
    · exact e
    · exact e
    · rcases h with ⟨_, _, rfl, e⟩ | ⟨_, _, _, rfl, e⟩ | ⟨_, _, _, rfl, e⟩ | ⟨_, e, _⟩
      · revert hf; simp [mkLeft, FileLine.isFortran, FileLine.isTrivial]
      · exact e
      · exact e
      · exact e

/-- A moved line is read as what it is. -/
theorem shift_reads {s : Now} {b : Bool} {lit' : Bool} {f f' : FileLine} (hd : validDelim s.pd = true) (ha : AsciiStr f.print)
    (h : analyzeFree s.ln f.print s.pd s.pc s.lit = .ok (f, lit')) (hs : SteadyLine b f) (hm : Shift false f f') :
    analyzeFree s.ln f'.print s.pd s.pc s.lit = .ok (f', lit') ∧ SameKind f f' ∧ (f.isFortran = true → LineOk s.pd s.pc f) := by
  have hln := (analyzeFree_misc h).1
  cases hF : f.isFortran with
  | true =>
    have hok := lineOk_of hd h hF ha (hs.hash hF) (hs.label hF)
    obtain ⟨a1, a2, _⟩ := hm.fortran _ _ hok
    obtain ⟨e1, e2⟩ := fortran_lit h hF
    refine ⟨?_, ⟨a2.bits, a2.linenum, a2.delim⟩, fun _ => hok⟩
    rw [e1, e2, a1.reads]
    have : f'.linenum = s.ln := by rw [a2.linenum, hln]
    rw [← this]
  | false =>
    cases hC : f.bits.comment with
    | true =>
      obtain ⟨hok, e1, e2⟩ := commentOk_of h hC (hs.mark hC)
      obtain ⟨a1, a2, a3⟩ := hm.comment _ hok
      refine ⟨?_, ⟨a2, a3, ?_⟩, fun h => (by cases h)⟩
      · rw [e1, e2, a1.reads]
        have : f'.linenum = s.ln := by rw [a3, hln]
        rw [← this]
      · rw [a1.empty.2.2.2.2, hok.empty.2.2.2.2]
    | false =>
      have := hm.other hF hC
      subst this
      exact ⟨h, .refl _, fun h => (by cases h)⟩

theorem chain_shift {s e : Now} {fs : List FileLine} (h : Chain s fs e) : ∀ {fs' : List FileLine}, List.Forall₂ (Shift false) fs fs' →
    (∀ f ∈ fs, ∃ b, SteadyLine b f) → (∀ f ∈ fs, AsciiStr f.print) → Chain s fs' e ∧ List.Forall₂ SameKind fs fs' := by
  induction h with
  | nil => intro fs' hm _ _; cases hm; exact ⟨.nil, .nil⟩
  | @cons s e f fs lit' h1 h3 _ ih =>
    intro fs' hm hs ha
    cases hm with
    | @cons _ f' _ fs' m1 m2 =>
      obtain ⟨b, hb⟩ := hs f (by simp)
      obtain ⟨r1, r2, _⟩ := shift_reads h3 (ha f (by simp)) h1 hb m1
      obtain ⟨c1, c2⟩ := ih m2 (fun g hg => hs g (by simp [hg])) (fun g hg => ha g (by simp [hg]))
      refine ⟨.cons r1 h3 ?_, .cons r2 c2⟩
      rw [r2.2.2, r2.1]
      exact c1

end FLPR
