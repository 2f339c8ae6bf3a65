import Verif.StmtParser.FormLang
import Mathlib.Data.List.Forall2
/-!
# Running a form on a pattern

The parsers commit themselves: they take the first alternative that matches and repeat as long as they
can.  To find out whether that ever loses a statement of the form, forms are run on patterns of what may
come (`srun`); the answers are right for every list of tokens that fits the pattern (`srun_sound`).
-/

namespace FLPR
namespace SP
open Spec

variable {ex : List Int}

/-- The parts of a pattern. -/
inductive Sym where
  | word (t : Int)
  | name
  | letter
  | spelled (w : Str)
  | expr
  | group
  /-- what is left of an expression, maybe nothing -/
  | tail
  deriving DecidableEq, Repr

/-- Equality, as a plain function. -/
def Sym.eqb : Sym → Sym → Bool
  | .word t, .word u => t == u
  | .name, .name => true
  | .letter, .letter => true
  | .spelled v, .spelled w => v == w
  | .expr, .expr => true
  | .group, .group => true
  | .tail, .tail => true
  | _, _ => false

theorem Sym.eqb_eq {a b : Sym} (h : a.eqb b = true) : a = b := by
  cases a <;> cases b <;> first | rfl | cases h | (exact congrArg _ (eq_of_beq h))

def symsEq : List Sym → List Sym → Bool
  | [], [] => true
  | a :: as, b :: bs => a.eqb b && symsEq as bs
  | _, _ => false

theorem symsEq_eq : ∀ {as bs : List Sym}, symsEq as bs = true → as = bs
  | [], [], _ => rfl
  | a :: as, b :: bs, h => by
    rw [symsEq, Bool.and_eq_true] at h
    rw [Sym.eqb_eq h.1, symsEq_eq h.2]
  | [], _ :: _, h => by cases h
  | _ :: _, [], h => by cases h

/-- The token lists of a part. -/
def Sym.Is (ex : List Int) : Sym → List Tok → Prop
  | word t, w => (Form.word t).Is w
  | name, w => (Form.nameBut ex).Is w
  | letter, w => Form.letter.Is w
  | spelled s, w => (Form.spelled s).Is w
  | expr, w => IsExpr (w.map (·.token))
  | group, w => IsGroup (w.map (·.token))
  | tail, w => Unbroken (w.map (·.token))

/-- The pieces of a token list go with the parts of a pattern; unless `o`, there is nothing more. -/
def FitsP (ex : List Int) (ss : List Sym) (o : Bool) (segs : List (List Tok)) (tl : List Tok) : Prop :=
  List.Forall₂ (Sym.Is ex) ss segs ∧ (o = false → tl = [])

/-- The pieces put together. -/
def flatU (segs : List (List Tok)) (tl : List Tok) : List Tok := segs.flatten ++ tl

theorem flatU_cons {w : List Tok} {segs : List (List Tok)} {tl : List Tok} :
    flatU (w :: segs) tl = w ++ flatU segs tl := by simp [flatU]

theorem flatU_append {a b : List (List Tok)} {tl : List Tok} : flatU (a ++ b) tl = a.flatten ++ flatU b tl := by
  simp [flatU]

def NoBad (u : List Tok) : Prop := ∀ a ∈ u, a.token ≠ Tag.BAD

theorem NoBad.left {u v : List Tok} (h : NoBad (u ++ v)) : NoBad u := fun a ha => h a (by simp [ha])
theorem NoBad.right {u v : List Tok} (h : NoBad (u ++ v)) : NoBad v := fun a ha => h a (by simp [ha])

theorem NoBad.tags {u : List Tok} (h : NoBad u) : ∀ t ∈ u.map (·.token), t ≠ Tag.BAD := by
  intro t ht
  obtain ⟨b, hb, rfl⟩ := List.mem_map.mp ht
  exact h b hb

theorem fits_cons {a : Sym} {ss : List Sym} {o : Bool} {segs : List (List Tok)} {tl : List Tok}
    (h : FitsP ex (a :: ss) o segs tl) : ∃ w segs', segs = w :: segs' ∧ a.Is ex w ∧ FitsP ex ss o segs' tl := by
  obtain ⟨h1, h2⟩ := h
  cases h1 with
  | cons ha hs => exact ⟨_, _, rfl, ha, hs, h2⟩

theorem fits_nil {o : Bool} {segs : List (List Tok)} {tl : List Tok} (h : FitsP ex [] o segs tl) :
    segs = [] ∧ (o = false → tl = []) := by
  obtain ⟨h1, h2⟩ := h
  cases h1
  exact ⟨rfl, h2⟩

theorem fits_length {ss : List Sym} {o : Bool} {segs : List (List Tok)} {tl : List Tok} (h : FitsP ex ss o segs tl) :
    segs.length = ss.length := h.1.length_eq.symm

/-! ### Heads -/

/-- No expression begins with these. -/
def notExprHead : List Int :=
  [Tag.TK_ASTERISK, Tag.TK_SLASHF, Tag.TK_COMMA, Tag.TK_COLON, Tag.TK_EQUAL, Tag.TK_PARENR, Tag.TK_BRACKETR, Tag.BAD]

/-- Nor does what is left of one begin with these. -/
def notTailHead : List Int :=
  [Tag.TK_COMMA, Tag.TK_COLON, Tag.TK_EQUAL, Tag.TK_PARENR, Tag.TK_BRACKETR, Tag.BAD]

/-- Does it begin with this tag? -/
def Sym.headIs (ex : List Int) (t : Int) : Sym → Option Bool
  | word u => some (u == t)
  | expr => if notExprHead.contains t then some false else none
  | group => some (Tag.TK_PARENL == t)
  | tail => none
  | name => if NameTag t ∧ t ∉ ex then none else some false
  | _ => if NameTag t then none else some false

def headIsP (ex : List Int) (t : Int) : List Sym → Bool → Option Bool
  | [], false => some (Tag.BAD == t)
  | [], true => none
  | .tail :: as, o => if notTailHead.contains t && headIsP ex t as o == some false then some false else none
  | a :: _, _ => a.headIs ex t

theorem unbroken_head {l : List Int} (h : Unbroken l) : ∀ t r, l = t :: r →
    t ≠ Tag.TK_COMMA ∧ t ≠ Tag.TK_COLON ∧ t ≠ Tag.TK_EQUAL ∧ t ≠ Tag.TK_PARENR ∧ t ≠ Tag.TK_BRACKETR := by
  intro t r he
  cases h with
  | nil => cases he
  | plain hp h1 h2 h3 _ => injection he with he; subst he; exact ⟨h1, h2, h3, hp.2.1, hp.2.2.2⟩
  | paren _ _ => injection he with he; subst he; decide
  | bracket _ _ => injection he with he; subst he; decide

theorem expr_head {w : List Tok} (h : IsExpr (w.map (·.token))) (hb : NoBad w) :
    ∃ x w', w = x :: w' ∧ notExprHead.contains x.token = false := by
  obtain ⟨h1, t, r, h2, h3, h4⟩ := h
  cases w with
  | nil => cases h2
  | cons x w =>
    have ht : x.token = t := by injection h2
    obtain ⟨a1, a2, a3, a4, a5⟩ := unbroken_head h1 t r h2
    have := hb x (by simp)
    refine ⟨x, w, rfl, ?_⟩
    rw [ht] at this ⊢
    simp [notExprHead, *]

theorem group_head {w : List Tok} (h : IsGroup (w.map (·.token))) :
    ∃ x w', w = x :: w' ∧ x.token = Tag.TK_PARENL := by
  obtain ⟨a, _, he⟩ := h
  cases w with
  | nil => cases he
  | cons x w => injection he with h1 _; exact ⟨x, w, rfl, h1⟩

theorem sym_head {a : Sym} {w : List Tok} (h : a.Is ex w) (hb : NoBad w) (ha : a ≠ .tail) :
    ∃ x w', w = x :: w' ∧ ∀ t b, a.headIs ex t = some b → (decide (x.token = t) = b) := by
  have nm : ∀ x : Tok, NameTag x.token → ∀ t b,
      (if NameTag t then none else some false) = some b → decide (x.token = t) = b := by
    intro x hx t b hh
    split at hh
    · cases hh
    · next hn =>
      injection hh with hh; subst hh
      rw [decide_eq_false_iff_not]
      intro he; rw [he] at hx; exact hn hx
  cases a with
  | word t =>
    obtain ⟨x, rfl, hx⟩ := h
    refine ⟨x, [], rfl, fun t' b hh => ?_⟩
    injection hh with hh; subst hh
    rw [hx, Bool.beq_eq_decide_eq]
  | name =>
    obtain ⟨x, rfl, hx, hn⟩ := h
    refine ⟨x, [], rfl, fun t b hh => ?_⟩
    rw [Sym.headIs] at hh
    split at hh
    · cases hh
    · next hc =>
      injection hh with hh; subst hh
      rw [decide_eq_false_iff_not]
      intro he; rw [he] at hx hn; exact hc ⟨hx, hn⟩
  | letter => obtain ⟨x, rfl, hx, _⟩ := h; exact ⟨x, [], rfl, nm x hx⟩
  | spelled s => obtain ⟨x, rfl, hx, _⟩ := h; exact ⟨x, [], rfl, nm x hx⟩
  | expr =>
    obtain ⟨x, w', rfl, hx⟩ := expr_head h hb
    refine ⟨x, w', rfl, fun t b hh => ?_⟩
    rw [Sym.headIs] at hh
    split at hh
    · next hc =>
      injection hh with hh; subst hh
      rw [decide_eq_false_iff_not]
      intro he; rw [he, hc] at hx; cases hx
    · cases hh
  | group =>
    obtain ⟨x, w', rfl, hx⟩ := group_head h
    refine ⟨x, w', rfl, fun t b hh => ?_⟩
    injection hh with hh; subst hh
    rw [hx, Bool.beq_eq_decide_eq]
  | tail => exact absurd rfl ha

theorem headIsP_sound {t : Int} : ∀ {ss : List Sym} {o b : Bool} {segs : List (List Tok)} {tl : List Tok},
    FitsP ex ss o segs tl → NoBad (flatU segs tl) → headIsP ex t ss o = some b →
    decide (PForm.headTag (flatU segs tl) = t) = b := by
  intro ss
  induction ss with
  | nil =>
    intro o b segs tl h hb hh
    obtain ⟨rfl, h2⟩ := fits_nil h
    cases o with
    | false =>
      rw [h2 rfl, ← Option.some.inj hh]
      rfl
    | true => cases hh
  | cons a as ih =>
    intro o b segs tl h hb hh
    obtain ⟨w, segs', rfl, h1, h2⟩ := fits_cons h
    rw [flatU_cons] at hb ⊢
    by_cases ha : a = .tail
    · subst ha
      rw [headIsP] at hh
      split at hh
      · next hc =>
        simp only [Bool.and_eq_true, beq_iff_eq] at hc
        rw [← Option.some.inj hh]
        cases w with
        | nil => exact ih h2 hb.right hc.2
        | cons x w =>
          obtain ⟨a1, a2, a3, a4, a5⟩ := unbroken_head h1 x.token _ rfl
          have a6 := hb x (by simp)
          rw [decide_eq_false_iff_not]
          intro he
          have he : x.token = t := he
          have := hc.1
          rw [← he] at this
          simp only [notTailHead, List.contains_cons, Bool.or_eq_true, beq_iff_eq, List.contains_nil, Bool.false_eq_true,
            or_false] at this
          tauto
      · cases hh
    · obtain ⟨x, w', rfl, hx⟩ := sym_head h1 hb.left ha
      refine hx t b ?_
      rw [← hh]
      cases a with
      | tail => exact absurd rfl ha
      | _ => rfl

/-! ### One token -/

/-- The condition of a form that takes one token. -/
def qOf : PForm → Tok → Bool
  | .tok t, a => a.token == t
  | .name, a => decide (NameTag a.token)
  | .letter, a => decide (NameTag a.token) && a.text.length == 1
  | .spelled w, a => decide (NameTag a.token) && a.lowerText.1 == w.map lowChar
  | _, _ => false

/-- Does such a form take the part?  `none`: maybe. -/
def on1 (ex : List Int) : PForm → Sym → Option Bool
  | .tok t, .word u => some (u == t)
  | .tok t, a => match a.headIs ex t with
    | some false => some false
    | _ => none
  | .name, .word u => some (decide (NameTag u))
  | .name, .group => some false
  | .name, .expr => none
  | .name, .tail => none
  | .name, _ => some true
  | .letter, .word u => if NameTag u then none else some false
  | .letter, .letter => some true
  | .letter, .group => some false
  | .letter, _ => none
  | .spelled _, .word u => if NameTag u then none else some false
  | .spelled w, .spelled v => some (v.map lowChar == w.map lowChar)
  | .spelled _, .group => some false
  | .spelled _, _ => none
  | _, _ => none

theorem on1_sound {f : PForm} {a : Sym} {b : Bool} {w : List Tok} (h : on1 ex f a = some b)
    (hw : a.Is ex w) (hb : NoBad w) : ∃ x w', w = x :: w' ∧ qOf f x = b ∧ (b = true → w' = []) := by
  have hg : ¬ NameTag Tag.TK_PARENL := by decide
  have viaHead : ∀ t, f = .tok t → a ≠ .tail →
      (match a.headIs ex t with | some false => some false | _ => none) = some b →
      ∃ x w', w = x :: w' ∧ qOf f x = b ∧ (b = true → w' = []) := by
    intro t hf ha hh
    obtain ⟨x, w', rfl, hx⟩ := sym_head hw hb ha
    split at hh
    · next he =>
      injection hh with hh; subst hh
      refine ⟨x, w', rfl, ?_, by simp⟩
      have := hx t false he
      rw [hf]
      simpa [qOf] using this
    · cases hh
  have grp : ∀ b', b' = false → a = .group → (∀ x : Tok, ¬ NameTag x.token → qOf f x = false) →
      b = b' → ∃ x w', w = x :: w' ∧ qOf f x = b ∧ (b = true → w' = []) := by
    intro b' hb' ha hq hbb
    subst ha
    obtain ⟨x, w', rfl, hx⟩ := group_head hw
    refine ⟨x, w', rfl, ?_, ?_⟩
    · rw [hbb, hb', hq x (by rw [hx]; exact hg)]
    · rw [hbb, hb']; simp
  have wrd : ∀ u, a = .word u → (∀ x : Tok, ¬ NameTag x.token → qOf f x = false) →
      (if NameTag u then none else some false) = some b →
      ∃ x w', w = x :: w' ∧ qOf f x = b ∧ (b = true → w' = []) := by
    intro u ha hq hh
    subst ha
    obtain ⟨x, rfl, hx⟩ := hw
    split at hh
    · cases hh
    · next hn =>
      injection hh with hh; subst hh
      exact ⟨x, [], rfl, hq x (by rw [hx]; exact hn), by simp⟩
  cases f with
  | tok t =>
    cases a with
    | word u =>
      obtain ⟨x, rfl, hx⟩ := hw
      injection h with h; subst h
      exact ⟨x, [], rfl, by rw [qOf, hx], fun _ => rfl⟩
    | name => exact viaHead t rfl (by simp) h
    | letter => exact viaHead t rfl (by simp) h
    | spelled s => exact viaHead t rfl (by simp) h
    | expr => exact viaHead t rfl (by simp) h
    | group => exact viaHead t rfl (by simp) h
    | tail => cases h
  | name =>
    have hq : ∀ x : Tok, ¬ NameTag x.token → qOf .name x = false := by intro x hx; simp [qOf, hx]
    cases a with
    | word u =>
      obtain ⟨x, rfl, hx⟩ := hw
      injection h with h; subst h
      exact ⟨x, [], rfl, by rw [qOf, hx], fun _ => rfl⟩
    | name =>
      obtain ⟨x, rfl, hx⟩ := hw
      injection h with h; subst h
      exact ⟨x, [], rfl, by simp [qOf, hx], fun _ => rfl⟩
    | letter =>
      obtain ⟨x, rfl, hx, _⟩ := hw
      injection h with h; subst h
      exact ⟨x, [], rfl, by simp [qOf, hx], fun _ => rfl⟩
    | spelled s =>
      obtain ⟨x, rfl, hx, _⟩ := hw
      injection h with h; subst h
      exact ⟨x, [], rfl, by simp [qOf, hx], fun _ => rfl⟩
    | expr => cases h
    | tail => cases h
    | group => injection h with h; exact grp false rfl rfl hq h.symm
  | letter =>
    have hq : ∀ x : Tok, ¬ NameTag x.token → qOf .letter x = false := by intro x hx; simp [qOf, hx]
    cases a with
    | word u => exact wrd u rfl hq h
    | letter =>
      obtain ⟨x, rfl, hx, hl⟩ := hw
      injection h with h; subst h
      exact ⟨x, [], rfl, by simp [qOf, hx, hl], fun _ => rfl⟩
    | group => injection h with h; exact grp false rfl rfl hq h.symm
    | name => cases h
    | spelled s => cases h
    | expr => cases h
    | tail => cases h
  | spelled s =>
    have hq : ∀ x : Tok, ¬ NameTag x.token → qOf (.spelled s) x = false := by intro x hx; simp [qOf, hx]
    cases a with
    | word u => exact wrd u rfl hq h
    | spelled v =>
      obtain ⟨x, rfl, hx, hl⟩ := hw
      injection h with h; subst h
      refine ⟨x, [], rfl, ?_, fun _ => rfl⟩
      simp [qOf, hx, hl]
    | group => injection h with h; exact grp false rfl rfl hq h.symm
    | name => cases h
    | letter => cases h
    | expr => cases h
    | tail => cases h
  | _ => cases a <;> cases h

/-- What such a form takes out of an expression leaves a piece of an expression. -/
def plainTaker : PForm → Bool
  | .tok t => inert t
  | .name => true
  | .letter => true
  | .spelled _ => true
  | _ => false

theorem nameTag_inert {t : Int} (h : NameTag t) : inert t = true := by
  have h2 : ∀ u ∈ [Tag.TK_PARENL, Tag.TK_PARENR, Tag.TK_BRACKETL, Tag.TK_BRACKETR, Tag.BAD, Tag.TK_COMMA,
      Tag.TK_COLON, Tag.TK_EQUAL], t ≠ u := by
    intro u hu he
    rw [he] at h
    clear he
    revert h
    revert u
    decide
  simp only [List.mem_cons, List.not_mem_nil, or_false, forall_eq_or_imp, forall_eq] at h2
  simp [inert, h2]

theorem plainTaker_inert {f : PForm} {x : Tok} (h : plainTaker f = true) (hq : qOf f x = true) :
    inert x.token = true := by
  cases f with
  | tok t => simp only [qOf, beq_iff_eq] at hq; rw [hq]; exact h
  | name => exact nameTag_inert (by simpa [qOf] using hq)
  | letter => simp only [qOf, Bool.and_eq_true, decide_eq_true_eq] at hq; exact nameTag_inert hq.1
  | spelled s => simp only [qOf, Bool.and_eq_true, decide_eq_true_eq] at hq; exact nameTag_inert hq.1
  | _ => cases h

theorem unbroken_rest {t : Int} {r l : List Int} (h : Unbroken l) (he : l = t :: r) (hi : inert t = true) :
    Unbroken r := by
  cases h with
  | nil => cases he
  | plain _ _ _ _ hu => injection he with _ h2; rw [← h2]; exact hu
  | paren _ _ => injection he with h1 _; rw [← h1] at hi; cases hi
  | bracket _ _ => injection he with h1 _; rw [← h1] at hi; cases hi

/-! ### Answers -/

/-- What may happen: `none` when that cannot be told; otherwise the possible outcomes, no match or a match that
leaves a pattern. -/
abbrev Ans := Option (List (Option (List Sym)))

/-- The last pieces. -/
def lastN (j : Nat) (l : List (List Tok)) : List (List Tok) := l.drop (l.length - j)

theorem lastN_cons {j : Nat} {a : List Tok} {l : List (List Tok)} (h : j ≤ l.length) : lastN j (a :: l) = lastN j l := by
  rw [lastN, lastN, List.length_cons, show l.length + 1 - j = (l.length - j) + 1 by omega, List.drop_succ_cons]

theorem lastN_append {j : Nat} {a l : List (List Tok)} (h : j ≤ l.length) : lastN j (a ++ l) = lastN j l := by
  induction a with
  | nil => rfl
  | cons x a ih => rw [List.cons_append, lastN_cons (by simp; omega), ih]

/-- The form matches and leaves something that fits `r`. -/
structure TookP (ex : List Int) (f : List Tok → Option (List Tok)) (r ss : List Sym) (o : Bool) (segs : List (List Tok))
    (tl : List Tok) (segs' : List (List Tok)) : Prop where
  run : f (flatU segs tl) = some (flatU segs' tl)
  fits : FitsP ex r o segs' tl
  nobad : NoBad (flatU segs' tl)
  same : ∀ j, j ≤ r.length → (r.head? = some .tail → j < r.length) → lastN j segs' = lastN j segs
  len : r.length ≤ ss.length
  keep : r.length = ss.length → ss.head? = some .tail → r.head? = some .tail
  le : (flatU segs' tl).length ≤ (flatU segs tl).length
  lt : r.length < ss.length → (flatU segs' tl).length < (flatU segs tl).length

/-- The outcome is what happens. -/
def OutOk (ex : List Int) (f : List Tok → Option (List Tok)) (out : Option (List Sym)) (ss : List Sym) (o : Bool)
    (segs : List (List Tok)) (tl : List Tok) : Prop :=
  (out = none ∧ f (flatU segs tl) = none) ∨ (∃ r segs', out = some r ∧ TookP ex f r ss o segs tl segs')

/-- One of the outcomes is what happens. -/
def SOk (ex : List Int) (f : List Tok → Option (List Tok)) (ans : Ans) (ss : List Sym) (o : Bool) (segs : List (List Tok))
    (tl : List Tok) : Prop :=
  ∀ l, ans = some l → ∃ out ∈ l, OutOk ex f out ss o segs tl

section
variable {f : List Tok → Option (List Tok)} {ss : List Sym} {o : Bool} {segs : List (List Tok)} {tl : List Tok}

theorem SOk.unknown : SOk ex f none ss o segs tl := fun l h => by cases h
theorem SOk.fails (h : f (flatU segs tl) = none) {l : List (Option (List Sym))} (hl : none ∈ l) :
    SOk ex f (some l) ss o segs tl := by
  intro l' h'
  injection h' with h'; subst h'
  exact ⟨none, hl, .inl ⟨rfl, h⟩⟩
theorem SOk.takes {r : List Sym} {segs' : List (List Tok)} (h : TookP ex f r ss o segs tl segs')
    {l : List (Option (List Sym))} (hl : some r ∈ l) : SOk ex f (some l) ss o segs tl := by
  intro l' h'
  injection h' with h'; subst h'
  exact ⟨some r, hl, .inr ⟨r, segs', rfl, h⟩⟩

theorem SOk.congr {g : List Tok → Option (List Tok)} {ans : Ans} (h : SOk ex f ans ss o segs tl)
    (he : g (flatU segs tl) = f (flatU segs tl)) : SOk ex g ans ss o segs tl := by
  intro l hl
  obtain ⟨out, hm, ho⟩ := h l hl
  refine ⟨out, hm, ?_⟩
  rcases ho with ⟨h1, h2⟩ | ⟨r, segs', h1, h2⟩
  · exact .inl ⟨h1, by rw [he]; exact h2⟩
  · exact .inr ⟨r, segs', h1, { h2 with run := by rw [he]; exact h2.run }⟩

theorem TookP.refl (h : FitsP ex ss o segs tl) (hb : NoBad (flatU segs tl)) (hf : f (flatU segs tl) = some (flatU segs tl)) :
    TookP ex f ss ss o segs tl segs :=
  ⟨hf, h, hb, fun _ _ _ => rfl, le_rfl, fun _ h => h, le_rfl, fun h => by omega⟩

/-- One part is taken. -/
theorem TookP.one {a : Sym} {as : List Sym} {w : List Tok} (h : FitsP ex as o segs tl) (hb : NoBad (flatU segs tl))
    (hw : w ≠ []) (hf : f (flatU (w :: segs) tl) = some (flatU segs tl)) :
    TookP ex f as (a :: as) o (w :: segs) tl segs := by
  have hl : 0 < w.length := List.length_pos_iff.mpr hw
  refine ⟨hf, h, hb, fun j hj _ => (lastN_cons (by rw [fits_length h]; exact hj)).symm, by simp, fun h => ?_, ?_, ?_⟩
  · simp at h
  · rw [flatU_cons, List.length_append]; omega
  · intro _; rw [flatU_cons, List.length_append]; omega

end

/-- Put answers together. -/
def catO : List Ans → Ans
  | [] => some []
  | none :: _ => none
  | some l :: as => (catO as).map (l ++ ·)

def outEq : Option (List Sym) → Option (List Sym) → Bool
  | none, none => true
  | some a, some b => symsEq a b
  | _, _ => false

theorem outEq_eq {a b : Option (List Sym)} (h : outEq a b = true) : a = b := by
  cases a <;> cases b <;> first | rfl | cases h | (rw [symsEq_eq h])

def insO (p : Option (List Sym)) (l : List (Option (List Sym))) : List (Option (List Sym)) :=
  if l.any (outEq p) then l else p :: l
def nubO (l : List (Option (List Sym))) : List (Option (List Sym)) := l.foldr insO []

theorem mem_nubO {p : Option (List Sym)} {l : List (Option (List Sym))} (h : p ∈ l) : p ∈ nubO l := by
  induction l with
  | nil => cases h
  | cons q l ih =>
    show p ∈ insO q (nubO l)
    rw [insO]
    rcases List.mem_cons.mp h with rfl | h
    · split
      · next hc =>
        obtain ⟨q', h1, h2⟩ := List.any_eq_true.mp hc
        rw [outEq_eq h2]
        exact h1
      · simp
    · split
      · exact ih h
      · exact List.mem_cons_of_mem _ (ih h)

theorem catO_mem {l : List (Option (List Sym))} : ∀ {as : List Ans}, catO as = some l →
    ∀ a ∈ as, ∃ m, a = some m ∧ ∀ x ∈ m, x ∈ l := by
  intro as
  induction as generalizing l with
  | nil => intro _ a ha; cases ha
  | cons b as ih =>
    intro h a ha
    cases b with
    | none => cases h
    | some lb =>
      rw [catO] at h
      obtain ⟨l', h1, rfl⟩ := Option.map_eq_some_iff.mp h
      rcases List.mem_cons.mp ha with rfl | ha
      · exact ⟨lb, rfl, fun x hx => List.mem_append_left _ hx⟩
      · obtain ⟨m, h2, h3⟩ := ih h1 a ha
        exact ⟨m, h2, fun x hx => List.mem_append_right _ (h3 x hx)⟩

/-- Go on after an answer. -/
def andThen (ans : Ans) (onFail : Ans) (onTake : List Sym → Ans) : Ans :=
  match ans with
  | none => none
  | some [none] => onFail
  | some [some r] => onTake r
  | some l => (catO (l.map (fun out => match out with
    | none => onFail
    | some r => onTake r))).map nubO

theorem andThen_sound {ans onFail : Ans} {onTake : List Sym → Ans} {f g : List Tok → Option (List Tok)}
    {ss : List Sym} {o : Bool} {segs : List (List Tok)} {tl : List Tok} (h : SOk ex f ans ss o segs tl)
    (h1 : f (flatU segs tl) = none → SOk ex g onFail ss o segs tl)
    (h2 : ∀ r segs', TookP ex f r ss o segs tl segs' → SOk ex g (onTake r) ss o segs tl) :
    SOk ex g (andThen ans onFail onTake) ss o segs tl := by
  intro l hl
  cases ans with
  | none => cases hl
  | some la =>
    obtain ⟨out, hm, ho⟩ := h la rfl
    rw [andThen.eq_def] at hl
    split at hl
    · cases hl
    · next he =>
      injection he with he
      subst he
      rw [List.mem_singleton] at hm
      subst hm
      rcases ho with ⟨_, hf⟩ | ⟨r, segs', hr, _⟩
      · exact h1 hf l hl
      · cases hr
    · next r he =>
      injection he with he
      subst he
      rw [List.mem_singleton] at hm
      subst hm
      rcases ho with ⟨hr, _⟩ | ⟨r, segs', hr, ht⟩
      · cases hr
      · injection hr with hr
        subst hr
        exact h2 _ segs' ht l hl
    next la' _ _ he =>
    injection he with he
    subst he
    obtain ⟨l0, h3, rfl⟩ := Option.map_eq_some_iff.mp hl
    rcases ho with ⟨rfl, hf⟩ | ⟨r, segs', rfl, ht⟩
    · obtain ⟨m, hm1, hm2⟩ := catO_mem h3 onFail (List.mem_map.mpr ⟨none, hm, rfl⟩)
      obtain ⟨out', h4, h5⟩ := h1 hf m hm1
      exact ⟨out', mem_nubO (hm2 _ h4), h5⟩
    · obtain ⟨m, hm1, hm2⟩ := catO_mem h3 (onTake r) (List.mem_map.mpr ⟨some r, hm, rfl⟩)
      obtain ⟨out', h4, h5⟩ := h2 r segs' ht m hm1
      exact ⟨out', mem_nubO (hm2 _ h4), h5⟩

/-- One match after another. -/
theorem TookP.trans {f g h : List Tok → Option (List Tok)} {r q ss : List Sym} {o : Bool}
    {segs segs' segs'' : List (List Tok)} {tl : List Tok} (h1 : TookP ex f r ss o segs tl segs')
    (h2 : TookP ex g q r o segs' tl segs'') (hh : h (flatU segs tl) = some (flatU segs'' tl)) :
    TookP ex h q ss o segs tl segs'' := by
  have e1 := h1.len
  have e2 := h2.len
  have e3 := h1.le
  have e4 := h2.le
  refine ⟨hh, h2.fits, h2.nobad, ?_, by omega, ?_, by omega, ?_⟩
  · intro j hj ht
    rw [h2.same j hj ht, h1.same j (by omega)]
    intro hr
    by_cases hlt : q.length < r.length
    · omega
    · have := ht (h2.keep (by omega) hr)
      omega
  · intro hl hs
    exact h2.keep (by omega) (h1.keep (by omega) hs)
  · intro hl
    by_cases hlt : r.length < ss.length
    · have := h1.lt hlt; omega
    · have := h2.lt (by omega); omega

/-! ### One token, expressions, groups -/

def s1 (ex : List Int) (f : PForm) : List Sym → Bool → Ans
  | [], false => some [none]
  | [], true => none
  | .tail :: as, o =>
    match f with
    | .tok t => if headIsP ex t (.tail :: as) o == some false then some [none] else none
    | _ => none
  | .expr :: as, _ =>
    match on1 ex f .expr with
    | some false => some [none]
    | _ => if plainTaker f then some [none, some (.tail :: as)] else none
  | .group :: _, _ =>
    match on1 ex f .group with
    | some false => some [none]
    | _ => none
  | a :: as, _ =>
    match on1 ex f a with
    | some false => some [none]
    | some true => some [some as]
    | none => some [none, some as]

theorem take1_none {q : Tok → Bool} {x : Tok} {u : List Tok} (h : q x = false) : PForm.take1 q (x :: u) = none := by
  simp [PForm.take1, h]
theorem take1_some {q : Tok → Bool} {x : Tok} {u : List Tok} (h : q x = true) : PForm.take1 q (x :: u) = some u := by
  simp [PForm.take1, h]

theorem s1_sound {f : PForm} {ss : List Sym} {o : Bool} {segs : List (List Tok)} {tl : List Tok}
    (h : FitsP ex ss o segs tl) (hb : NoBad (flatU segs tl)) :
    SOk ex (PForm.take1 (qOf f)) (s1 ex f ss o) ss o segs tl := by
  cases ss with
  | nil =>
    obtain ⟨rfl, h2⟩ := fits_nil h
    cases o with
    | false => rw [h2 rfl]; exact .fails rfl (by simp)
    | true => exact .unknown
  | cons a as =>
    obtain ⟨w, segs', rfl, h1, h2⟩ := fits_cons h
    have hb' := hb
    rw [flatU_cons] at hb'
    -- parts of one token
    have single : ∀ x : Tok, w = [x] →
        SOk ex (PForm.take1 (qOf f)) (match on1 ex f a with
          | some false => some [none] | some true => some [some as] | none => some [none, some as])
          (a :: as) o (w :: segs') tl := by
      intro x hx
      subst hx
      have tk : qOf f x = true → TookP ex (PForm.take1 (qOf f)) as (a :: as) o ([x] :: segs') tl segs' := fun hq =>
        TookP.one h2 hb'.right (by simp) (by rw [flatU_cons]; exact take1_some hq)
      have nt : qOf f x = false → PForm.take1 (qOf f) (flatU ([x] :: segs') tl) = none := fun hq => by
        rw [flatU_cons]; exact take1_none hq
      cases ho : on1 ex f a with
      | none =>
        by_cases hq : qOf f x = true
        · exact .takes (tk hq) (by simp)
        · exact .fails (nt (by simpa using hq)) (by simp)
      | some b =>
        obtain ⟨x', w', hw, hq, _⟩ := on1_sound ho h1 hb'.left
        injection hw with hw _
        subst hw
        cases b with
        | false => exact .fails (nt hq) (by simp)
        | true => exact .takes (tk hq) (by simp)
    cases a with
    | word t => obtain ⟨x, hx, _⟩ := h1; exact single x hx
    | name => obtain ⟨x, hx, _⟩ := h1; exact single x hx
    | letter => obtain ⟨x, hx, _⟩ := h1; exact single x hx
    | spelled s => obtain ⟨x, hx, _⟩ := h1; exact single x hx
    | expr =>
      rw [s1]
      split
      · next ho =>
        obtain ⟨x, w', rfl, hq, _⟩ := on1_sound ho h1 hb'.left
        exact .fails (by rw [flatU_cons]; exact take1_none hq) (by simp)
      · split
        · next hp =>
          obtain ⟨x, w', rfl, _⟩ := expr_head h1 hb'.left
          by_cases hq : qOf f x = true
          · have hu := unbroken_rest h1.1 (t := x.token) (r := w'.map (·.token)) rfl (plainTaker_inert hp hq)
            refine .takes (r := .tail :: as) (segs' := w' :: segs') ?_ (by simp)
            have hl := fits_length h2
            refine ⟨?_, ⟨.cons hu h2.1, h2.2⟩, ?_, ?_, by simp, fun _ h => (by cases h), ?_, fun h => by simp at h⟩
            · rw [flatU_cons, flatU_cons]; exact take1_some hq
            · rw [flatU_cons]
              intro b hb1
              exact hb' b (by simp at hb1 ⊢; tauto)
            · intro j _ hj
              have := hj rfl
              rw [List.length_cons] at this
              rw [lastN_cons (by omega), lastN_cons (by omega)]
            · rw [flatU_cons, flatU_cons, List.length_append, List.length_append, List.length_cons]; omega
          · exact .fails (by rw [flatU_cons]; exact take1_none (by simpa using hq)) (by simp)
        · exact .unknown
    | group =>
      rw [s1]
      split
      · next ho =>
        obtain ⟨x, w', rfl, hq, _⟩ := on1_sound ho h1 hb'.left
        exact .fails (by rw [flatU_cons]; exact take1_none hq) (by simp)
      · exact .unknown
    | tail =>
      cases f with
      | tok t =>
        rw [s1]
        split
        · next hc =>
          rw [beq_iff_eq] at hc
          have := headIsP_sound h hb hc
          rw [decide_eq_false_iff_not] at this
          refine .fails ?_ (by simp)
          cases hu : flatU (w :: segs') tl with
          | nil => rfl
          | cons x u =>
            rw [hu] at this
            refine take1_none ?_
            rw [qOf]
            rw [beq_eq_false_iff_ne]
            exact this
        · exact .unknown
      | _ => exact .unknown

/-- How far an expression goes. -/
def sscan : List Sym → Bool → Option (Option (List Sym))
  | [], false => some (some [])
  | [], true => none
  | .word t :: as, o =>
    if exprStop t then some (some (.word t :: as)) else if t == Tag.TK_EQUAL then some none
    else if inert t then sscan as o else none
  | _ :: as, o => sscan as o

theorem inert_unbroken {t : Int} (h : inert t = true) : Unbroken [t] := by
  simp only [inert, Bool.and_eq_true, bne_iff_ne, ne_eq] at h
  obtain ⟨⟨⟨⟨⟨⟨⟨h1, h2⟩, h3⟩, h4⟩, _⟩, h6⟩, h7⟩, h8⟩ := h
  exact .plain ⟨h1, h2, h3, h4⟩ h6 h7 h8 .nil

theorem sym_unbroken {a : Sym} {w : List Tok} (h : a.Is ex w) (ha : ∀ t, a = .word t → inert t = true) :
    Unbroken (w.map (·.token)) ∧ (a ≠ .tail → w ≠ []) := by
  cases a with
  | word t =>
    obtain ⟨x, rfl, hx⟩ := h
    exact ⟨by simpa [hx] using inert_unbroken (ha t rfl), by simp⟩
  | name => obtain ⟨x, rfl, hx, _⟩ := h; exact ⟨by simpa using inert_unbroken (nameTag_inert hx), by simp⟩
  | letter => obtain ⟨x, rfl, hx, _⟩ := h; exact ⟨by simpa using inert_unbroken (nameTag_inert hx), by simp⟩
  | spelled s => obtain ⟨x, rfl, hx, _⟩ := h; exact ⟨by simpa using inert_unbroken (nameTag_inert hx), by simp⟩
  | expr =>
    refine ⟨h.1, fun _ => ?_⟩
    rintro rfl
    obtain ⟨_, t, r, h2, _⟩ := h
    cases h2
  | group =>
    obtain ⟨x, hx, he⟩ := h
    constructor
    · show Unbroken (w.map (·.token))
      rw [he]
      exact .paren hx .nil
    · rintro _ rfl
      cases he
  | tail => exact ⟨h, fun h => absurd rfl h⟩

theorem sscan_sound : ∀ (ss : List Sym) (o : Bool) (segs : List (List Tok)) (tl : List Tok), FitsP ex ss o segs tl →
    NoBad (flatU segs tl) →
    (sscan ss o = some none → PForm.scanN ((flatU segs tl).map (·.token)) 1 = none) ∧
    (∀ r, sscan ss o = some (some r) → ∃ p q, segs = p ++ q ∧ FitsP ex r o q tl ∧
      PForm.scanN ((flatU segs tl).map (·.token)) 1 = some p.flatten.length ∧
      (p ≠ [] → ss.head? ≠ some .tail → p.flatten ≠ [])) := by
  intro ss
  induction ss with
  | nil =>
    intro o segs tl h _
    obtain ⟨rfl, h2⟩ := fits_nil h
    cases o with
    | false =>
      rw [h2 rfl]
      refine ⟨fun h => (by cases h), fun r h => ?_⟩
      injection h with h; injection h with h; subst h
      exact ⟨[], [], rfl, ⟨.nil, fun _ => rfl⟩, rfl, by simp⟩
    | true => exact ⟨fun h => (by cases h), fun r h => by cases h⟩
  | cons a as ih =>
    intro o segs tl h hb
    obtain ⟨w, segs', rfl, h1, h2⟩ := fits_cons h
    rw [flatU_cons] at hb ⊢
    -- what happens when the part is passed
    have pass : (∀ t, a = .word t → inert t = true) → sscan (a :: as) o = sscan as o →
        (sscan (a :: as) o = some none → PForm.scanN ((w ++ flatU segs' tl).map (·.token)) 1 = none) ∧
        (∀ r, sscan (a :: as) o = some (some r) → ∃ p q, w :: segs' = p ++ q ∧ FitsP ex r o q tl ∧
          PForm.scanN ((w ++ flatU segs' tl).map (·.token)) 1 = some p.flatten.length ∧
          (p ≠ [] → (a :: as).head? ≠ some .tail → p.flatten ≠ [])) := by
      intro ha he
      obtain ⟨hu, hne⟩ := sym_unbroken h1 ha
      obtain ⟨i1, i2⟩ := ih o segs' tl h2 hb.right
      have hs : PForm.scanN ((w ++ flatU segs' tl).map (·.token)) 1 =
          (PForm.scanN ((flatU segs' tl).map (·.token)) 1).map (· + w.length) := by
        rw [List.map_append, scanN_unbroken hu _ hb.left.tags]
        simp
      rw [he]
      refine ⟨fun h => by rw [hs, i1 h]; rfl, fun r h => ?_⟩
      obtain ⟨p, q, rfl, k2, k3, k4⟩ := i2 r h
      refine ⟨w :: p, q, rfl, k2, ?_, ?_⟩
      · rw [hs, k3]; simp; omega
      · intro _ hh hn
        rw [List.flatten_cons, List.append_eq_nil_iff] at hn
        exact hne (by rintro rfl; exact hh rfl) hn.1
    cases a with
    | word t =>
      obtain ⟨x, rfl, hx⟩ := h1
      by_cases c1 : exprStop t = true
      · rw [sscan, if_pos c1]
        refine ⟨fun h => (by cases h), fun r h' => ?_⟩
        injection h' with h'; injection h' with h'; subst h'
        exact ⟨[], [x] :: segs', rfl, h, scanN_stop (by simpa [PForm.headTag, hx] using c1), by simp⟩
      · by_cases c2 : (t == Tag.TK_EQUAL) = true
        · rw [sscan, if_neg c1, if_pos c2]
          refine ⟨fun _ => ?_, fun r h => by cases h⟩
          rw [List.singleton_append, List.map_cons, PForm.scanN, hx]
          have : breakStep t 1 = .fail := by
            rw [beq_iff_eq] at c2
            rw [c2]; rfl
          rw [this]
        · by_cases c3 : inert t = true
          · refine pass (fun t' ht => by injection ht with ht; rw [← ht]; exact c3) ?_
            rw [sscan, if_neg c1, if_neg c2, if_pos c3]
          · rw [sscan, if_neg c1, if_neg c2, if_neg c3]
            exact ⟨fun h => (by cases h), fun r h => by cases h⟩
    | name => exact pass (fun t ht => by cases ht) rfl
    | letter => exact pass (fun t ht => by cases ht) rfl
    | spelled s => exact pass (fun t ht => by cases ht) rfl
    | expr => exact pass (fun t ht => by cases ht) rfl
    | group => exact pass (fun t ht => by cases ht) rfl
    | tail => exact pass (fun t ht => by cases ht) rfl

def sexpr (ex : List Int) (ss : List Sym) (o : Bool) : Ans :=
  if ss.head? = some .tail then none
  else
    match headIsP ex Tag.TK_ASTERISK ss o, headIsP ex Tag.TK_SLASHF ss o with
    | some false, some false =>
      match sscan ss o with
      | some (some r) => if r.length = ss.length then some [none] else some [some r]
      | some none => some [none]
      | none => none
    | some true, _ => some [none]
    | _, some true => some [none]
    | _, _ => none

theorem sexpr_sound {ss : List Sym} {o : Bool} {segs : List (List Tok)} {tl : List Tok}
    (h : FitsP ex ss o segs tl) (hb : NoBad (flatU segs tl)) :
    SOk ex PForm.runExprL (sexpr ex ss o) ss o segs tl := by
  rw [sexpr]
  split
  · exact .unknown
  · next ht =>
    split
    · next e1 e2 =>
      have k1 := headIsP_sound h hb e1
      have k2 := headIsP_sound h hb e2
      rw [decide_eq_false_iff_not] at k1 k2
      obtain ⟨i1, i2⟩ := sscan_sound ss o segs tl h hb
      have hne : ¬ (PForm.headTag (flatU segs tl) = Tag.TK_ASTERISK ∨ PForm.headTag (flatU segs tl) = Tag.TK_SLASHF) := by
        rintro (h | h)
        · exact k1 h
        · exact k2 h
      split
      · next r hr =>
        obtain ⟨p, q, rfl, j1, j2, j3⟩ := i2 r hr
        have l1 := fits_length h
        have l2 := fits_length j1
        rw [List.length_append] at l1
        split
        · next hl =>
          have hp : p = [] := List.length_eq_zero_iff.mp (by omega)
          subst hp
          refine .fails ?_ (by simp)
          rw [PForm.runExprL, if_neg hne, j2]
          rfl
        · next hl =>
          have hp : p ≠ [] := by rintro rfl; simp at l1; omega
          have hw := j3 hp ht
          have hpl : 0 < p.flatten.length := List.length_pos_iff.mpr hw
          refine .takes (r := r) (segs' := q) ?_ (by simp)
          rw [flatU_append] at hb hne j2
          refine ⟨?_, j1, hb.right, ?_, by omega, fun _ hh => absurd hh ht, ?_, ?_⟩
          · rw [flatU_append, PForm.runExprL, if_neg hne, j2]
            obtain ⟨n, hn⟩ : ∃ n, p.flatten.length = n + 1 := ⟨p.flatten.length - 1, by omega⟩
            rw [hn]
            simp only
            rw [← hn, List.drop_left]
          · intro j hj _
            exact (lastN_append (by omega)).symm
          · rw [flatU_append, List.length_append]; omega
          · intro _; rw [flatU_append, List.length_append]; omega
      · next hs =>
        refine .fails ?_ (by simp)
        rw [PForm.runExprL, if_neg hne, i1 hs]
      · exact .unknown
    · next e1 =>
      have k1 := headIsP_sound h hb e1
      rw [decide_eq_true_iff] at k1
      exact .fails (by rw [PForm.runExprL, if_pos (.inl k1)]) (by simp)
    · next e1 _ =>
      have k1 := headIsP_sound h hb e1
      rw [decide_eq_true_iff] at k1
      exact .fails (by rw [PForm.runExprL, if_pos (.inr k1)]) (by simp)
    · exact .unknown

def sgroup : List Sym → Bool → Ans
  | [], false => some [none]
  | [], true => none
  | .group :: as, _ => some [some as]
  | .word t :: _, _ => if t = Tag.TK_PARENL then none else some [none]
  | .expr :: _, _ => none
  | .tail :: _, _ => none
  | _ :: _, _ => some [none]

theorem runGroupL_fails {x : Tok} {u : List Tok} (h : x.token ≠ Tag.TK_PARENL) : PForm.runGroupL (x :: u) = none := by
  rw [PForm.runGroupL, if_neg h]

theorem sgroup_sound {ss : List Sym} {o : Bool} {segs : List (List Tok)} {tl : List Tok}
    (h : FitsP ex ss o segs tl) (hb : NoBad (flatU segs tl)) :
    SOk ex PForm.runGroupL (sgroup ss o) ss o segs tl := by
  have nm : ∀ x : Tok, NameTag x.token → x.token ≠ Tag.TK_PARENL := by
    intro x hx he
    rw [he] at hx
    exact absurd hx (by decide)
  cases ss with
  | nil =>
    obtain ⟨rfl, h2⟩ := fits_nil h
    cases o with
    | false => rw [h2 rfl]; exact .fails rfl (by simp)
    | true => exact .unknown
  | cons a as =>
    obtain ⟨w, segs', rfl, h1, h2⟩ := fits_cons h
    rw [flatU_cons] at hb
    have nf : ∀ x : Tok, w = [x] → x.token ≠ Tag.TK_PARENL →
        SOk ex PForm.runGroupL (some [none]) (a :: as) o (w :: segs') tl := by
      intro x hx hn
      subst hx
      exact .fails (by rw [flatU_cons]; exact runGroupL_fails hn) (by simp)
    cases a with
    | word t =>
      obtain ⟨x, hw, hx⟩ := h1
      rw [sgroup]
      split
      · exact .unknown
      · next hn => exact nf x hw (by rw [hx]; exact hn)
    | name => obtain ⟨x, hw, hx, _⟩ := h1; exact nf x hw (nm x hx)
    | letter => obtain ⟨x, hw, hx, _⟩ := h1; exact nf x hw (nm x hx)
    | spelled s => obtain ⟨x, hw, hx, _⟩ := h1; exact nf x hw (nm x hx)
    | expr => exact .unknown
    | tail => exact .unknown
    | group =>
      obtain ⟨x, w', rfl, _⟩ := group_head h1
      exact .takes (TookP.one h2 hb.right (by simp) (by rw [flatU_cons]; exact runGroupL_complete h1)) (by simp)

/-- Can what follows a `list_name` follow it? -/
def hin : List Sym → Bool → Option Bool
  | [], false => some true
  | [], true => none
  | .word t :: _, _ => some (PForm.afterName.contains t)
  | .expr :: _, _ => none
  | .tail :: _, _ => none
  | _ :: _, _ => some false

theorem hin_sound {ss : List Sym} {o b : Bool} {segs : List (List Tok)} {tl : List Tok} (h : FitsP ex ss o segs tl)
    (hh : hin ss o = some b) : PForm.afterName.contains (PForm.headTag (flatU segs tl)) = b := by
  have nm : ∀ x : Tok, NameTag x.token → PForm.afterName.contains x.token = false := by
    intro x hx
    by_contra hc
    rw [Bool.not_eq_false, List.contains_iff_mem] at hc
    revert hc hx
    generalize x.token = t
    intro hx hc
    revert hx
    revert t
    decide
  cases ss with
  | nil =>
    obtain ⟨rfl, h2⟩ := fits_nil h
    cases o with
    | false =>
      rw [h2 rfl, ← Option.some.inj hh]
      rfl
    | true => cases hh
  | cons a as =>
    obtain ⟨w, segs', rfl, h1, h2⟩ := fits_cons h
    rw [flatU_cons]
    cases a with
    | word t =>
      obtain ⟨x, rfl, hx⟩ := h1
      injection hh with hh; subst hh
      show PForm.afterName.contains x.token = _
      rw [hx]
    | name => obtain ⟨x, rfl, hx, _⟩ := h1; injection hh with hh; subst hh; exact nm x hx
    | letter => obtain ⟨x, rfl, hx, _⟩ := h1; injection hh with hh; subst hh; exact nm x hx
    | spelled s => obtain ⟨x, rfl, hx, _⟩ := h1; injection hh with hh; subst hh; exact nm x hx
    | expr => cases hh
    | tail => cases hh
    | group =>
      obtain ⟨x, w', rfl, hx⟩ := group_head h1
      injection hh with hh; subst hh
      show PForm.afterName.contains x.token = _
      rw [hx]; rfl

/-! ### All forms -/

def sstar (f : List Sym → Ans) : Nat → List Sym → Ans
  | 0, _ => none
  | n + 1, ss => andThen (f ss) (some [some ss]) (fun r => if r.length < ss.length then sstar f n r else none)

/-- Look only: no match, or a match that takes nothing. -/
def looks (b : Option Bool) (ss : List Sym) : Ans :=
  match b with
  | some true => some [some ss]
  | some false => some [none]
  | none => some [none, some ss]

/-- What a form does with a pattern. -/
def srun (ex : List Int) : PForm → List Sym → Bool → Ans
  | .eps, ss, _ => some [some ss]
  | .never, _, _ => some [none]
  | .tok t, ss, o => s1 ex (.tok t) ss o
  | .name, ss, o => s1 ex .name ss o
  | .letter, ss, o => s1 ex .letter ss o
  | .spelled w, ss, o => s1 ex (.spelled w) ss o
  | .expr, ss, o => sexpr ex ss o
  | .group, ss, o => sgroup ss o
  | .listName, ss, o => andThen (s1 ex .name ss o) (some [none]) (fun r => looks (hin r o) r)
  | .seq a b, ss, o => andThen (srun ex a ss o) (some [none]) (fun r => srun ex b r o)
  | .alt a b, ss, o => andThen (srun ex a ss o) (srun ex b ss o) (fun r => some [some r])
  | .star a, ss, o => sstar (fun ss => srun ex a ss o) (ss.length + 1) ss
  | .peek t, ss, o => looks (headIsP ex t ss o) ss
  | .notPeek t, ss, o => looks ((headIsP ex t ss o).map (!·)) ss

theorem looks_sound {f : List Tok → Option (List Tok)} {b : Option Bool} {ss : List Sym} {o c : Bool}
    {segs : List (List Tok)} {tl : List Tok} (h : FitsP ex ss o segs tl) (hb : NoBad (flatU segs tl))
    (hf : f (flatU segs tl) = if c then some (flatU segs tl) else none) (hc : ∀ x, b = some x → c = x) :
    SOk ex f (looks b ss) ss o segs tl := by
  have tk : c = true → TookP ex f ss ss o segs tl segs := fun h' => .refl h hb (by rw [hf, h']; rfl)
  have nt : c = false → f (flatU segs tl) = none := fun h' => by rw [hf, h']; rfl
  cases b with
  | none =>
    cases hcc : c with
    | true => exact .takes (tk hcc) (by simp)
    | false => exact .fails (nt hcc) (by simp)
  | some x =>
    have := hc x rfl
    cases x with
    | true => exact .takes (tk this) (by simp)
    | false => exact .fails (nt this) (by simp)

theorem srun_sound : ∀ (F : PForm) (ss : List Sym) (o : Bool) (segs : List (List Tok)) (tl : List Tok),
    FitsP ex ss o segs tl → NoBad (flatU segs tl) → SOk ex F.run (srun ex F ss o) ss o segs tl := by
  intro F
  induction F with
  | eps => intro ss o segs tl h hb; exact .takes (.refl h hb rfl) (by simp)
  | never => intro ss o segs tl h hb; exact .fails rfl (by simp)
  | tok t => intro ss o segs tl h hb; exact s1_sound (f := .tok t) h hb
  | name => intro ss o segs tl h hb; exact s1_sound (f := .name) h hb
  | letter => intro ss o segs tl h hb; exact s1_sound (f := .letter) h hb
  | spelled w => intro ss o segs tl h hb; exact s1_sound (f := .spelled w) h hb
  | expr => intro ss o segs tl h hb; exact sexpr_sound h hb
  | group => intro ss o segs tl h hb; exact sgroup_sound h hb
  | listName =>
    intro ss o segs tl h hb
    have hr : ∀ ts, PForm.listName.run ts = (PForm.take1 (qOf .name) ts).bind
      (fun r => if PForm.afterName.contains (PForm.headTag r) then some r else none) := fun _ => rfl
    refine andThen_sound (s1_sound (f := .name) h hb) (fun hf => .fails (by rw [hr, hf]; rfl) (by simp)) ?_
    intro r segs' ht l hl
    have hk := looks_sound (f := fun u => if PForm.afterName.contains (PForm.headTag u) then some u else none)
      (b := hin r o) (c := PForm.afterName.contains (PForm.headTag (flatU segs' tl))) ht.fits ht.nobad rfl
      (fun x hx => hin_sound ht.fits hx)
    obtain ⟨out, hm, ho⟩ := hk l hl
    refine ⟨out, hm, ?_⟩
    rcases ho with ⟨h1, h2⟩ | ⟨r', segs'', h1, h2⟩
    · exact .inl ⟨h1, by rw [hr, ht.run]; exact h2⟩
    · exact .inr ⟨r', segs'', h1, ht.trans h2 (by rw [hr, ht.run]; exact h2.run)⟩
  | seq a b iha ihb =>
    intro ss o segs tl h hb
    refine andThen_sound (iha ss o segs tl h hb) (fun hf => .fails (by rw [PForm.run, hf]; rfl) (by simp)) ?_
    intro r segs' ht l hl
    obtain ⟨out, hm, ho⟩ := ihb r o segs' tl ht.fits ht.nobad l hl
    refine ⟨out, hm, ?_⟩
    rcases ho with ⟨h1, h2⟩ | ⟨r', segs'', h1, h2⟩
    · exact .inl ⟨h1, by rw [PForm.run, ht.run]; exact h2⟩
    · exact .inr ⟨r', segs'', h1, ht.trans h2 (by rw [PForm.run, ht.run]; exact h2.run)⟩
  | alt a b iha ihb =>
    intro ss o segs tl h hb
    refine andThen_sound (iha ss o segs tl h hb) (fun hf l hl => ?_) (fun r segs' ht => ?_)
    · have he : (PForm.alt a b).run (flatU segs tl) = b.run (flatU segs tl) := by rw [PForm.run, hf]
      obtain ⟨out, hm, ho⟩ := ihb ss o segs tl h hb l hl
      refine ⟨out, hm, ?_⟩
      rcases ho with ⟨h1, h2⟩ | ⟨r', segs'', h1, h2⟩
      · exact .inl ⟨h1, by rw [he]; exact h2⟩
      · exact .inr ⟨r', segs'', h1, { h2 with run := by rw [he]; exact h2.run }⟩
    · exact .takes { ht with run := by rw [PForm.run, ht.run] } (by simp)
  | star a ih =>
    intro ss o segs tl h hb
    have key : ∀ n m ss segs, FitsP ex ss o segs tl → NoBad (flatU segs tl) → (flatU segs tl).length ≤ m →
        SOk ex (fun u => some (PForm.starL a.run m u)) (sstar (fun ss => srun ex a ss o) n ss) ss o segs tl := by
      intro n
      induction n with
      | zero => intro m ss segs _ _ _; exact .unknown
      | succ n ihn =>
        intro m ss segs h hb hm
        refine andThen_sound (ih ss o segs tl h hb) (fun hf => ?_) (fun r segs' ht => ?_)
        · refine .takes (.refl h hb ?_) (by simp)
          cases m with
          | zero => rfl
          | succ m => simp only [PForm.starL, hf]
        · split
          · next hlt =>
            have hvl := ht.lt hlt
            have he : PForm.starL a.run m (flatU segs tl) = PForm.starL a.run (m - 1) (flatU segs' tl) := by
              obtain ⟨m', rfl⟩ : ∃ m', m = m' + 1 := ⟨m - 1, by omega⟩
              rw [PForm.starL, ht.run]
              simp only
              rw [if_pos hvl]
              rfl
            intro l hl
            obtain ⟨out, hm', ho⟩ := ihn (m - 1) r segs' ht.fits ht.nobad (by omega) l hl
            refine ⟨out, hm', ?_⟩
            rcases ho with ⟨h1, h2⟩ | ⟨r', segs'', h1, h2⟩
            · cases h2
            · refine .inr ⟨r', segs'', h1, ht.trans h2 ?_⟩
              show some _ = _
              rw [he]; exact h2.run
          · exact .unknown
    exact SOk.congr (key _ _ ss segs h hb le_rfl) rfl
  | peek t =>
    intro ss o segs tl h hb
    refine looks_sound (c := decide (PForm.headTag (flatU segs tl) = t)) h hb ?_ (fun x hx => headIsP_sound h hb hx)
    rw [PForm.run]
    simp
  | notPeek t =>
    intro ss o segs tl h hb
    refine looks_sound (c := !decide (PForm.headTag (flatU segs tl) = t)) h hb ?_ (fun x hx => ?_)
    · rw [PForm.run]
      by_cases hc : PForm.headTag (flatU segs tl) = t <;> simp [hc]
    · obtain ⟨y, hy, rfl⟩ := Option.map_eq_some_iff.mp hx
      rw [headIsP_sound h hb hy]

end SP
end FLPR
