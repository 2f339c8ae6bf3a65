import Verif.StmtParser.TreeSpec
import Verif.StmtParser.StreamProps
/-! # Lemmas about nested token sequences -/

namespace FLPR
namespace SP
open Spec

/-- Opening and closing symbols as `consume_until_break` sees them. -/
def opE (t : Int) : Bool := t == Tag.TK_PARENL || t == Tag.TK_BRACKETL
def clE (t : Int) : Bool := t == Tag.TK_PARENR || t == Tag.TK_BRACKETR
/-- Opening and closing symbols as `consume_parens` sees them. -/
def opP (t : Int) : Bool := t == Tag.TK_PARENL
def clP (t : Int) : Bool := t == Tag.TK_PARENR

/-- Read with `k` groups open, the sequence closes them, or closes one more. -/
def Closed (op cl : Int → Bool) : Nat → List Int → Prop
  | k, [] => k = 0
  | k, t :: ts =>
    if op t then Closed op cl (k + 1) ts
    else if cl t then k = 0 ∨ Closed op cl (k - 1) ts
    else Closed op cl k ts

/-- The two choices of symbols. -/
structure Delims (op cl : Int → Bool) : Prop where
  pl : op Tag.TK_PARENL = true
  pr : op Tag.TK_PARENR = false ∧ cl Tag.TK_PARENR = true
  br : (op Tag.TK_BRACKETL = true ∧ op Tag.TK_BRACKETR = false ∧ cl Tag.TK_BRACKETR = true) ∨
    (op Tag.TK_BRACKETL = false ∧ cl Tag.TK_BRACKETL = false ∧ op Tag.TK_BRACKETR = false ∧
      cl Tag.TK_BRACKETR = false)
  plain : ∀ t, Plain t → op t = false ∧ cl t = false

theorem delimsE : Delims opE clE := by
  refine ⟨by decide, by decide, by decide, ?_⟩
  rintro t ⟨h1, h2, h3, h4⟩
  simp [opE, clE, h1, h2, h3, h4]

theorem delimsP : Delims opP clP := by
  refine ⟨by decide, by decide, by decide, ?_⟩
  rintro t ⟨h1, h2, h3, h4⟩
  simp [opP, clP, h1, h2]

section closed
variable {op cl : Int → Bool} (hd : Delims op cl)

theorem closed_plain {t : Int} {ts : List Int} {k : Nat} (h1 : op t = false) (h2 : cl t = false) :
    Closed op cl k (t :: ts) ↔ Closed op cl k ts := by
  rw [Closed, if_neg (by simp [h1]), if_neg (by simp [h2])]

theorem closed_open {t : Int} {ts : List Int} {k : Nat} (h1 : op t = true) :
    Closed op cl k (t :: ts) ↔ Closed op cl (k + 1) ts := by
  rw [Closed, if_pos h1]

theorem closed_close {t : Int} {ts : List Int} {k : Nat} (h1 : op t = false) (h2 : cl t = true) :
    Closed op cl (k + 1) (t :: ts) ↔ Closed op cl k ts := by
  rw [Closed, if_neg (by simp [h1]), if_pos h2]
  simp

theorem closed_stop {t : Int} {ts : List Int} (h1 : op t = false) (h2 : cl t = true) :
    Closed op cl 0 (t :: ts) := by
  rw [Closed, if_neg (by simp [h1]), if_pos h2]
  exact .inl rfl

include hd in
theorem wn_skip {l : List Int} (h : WellNested l) :
    ∀ k rest, Closed op cl k (l ++ rest) ↔ Closed op cl k rest := by
  induction h with
  | nil => intros; rfl
  | @plain t ts hp _ ih =>
    intro k rest
    have := hd.plain t hp
    rw [List.cons_append, closed_plain this.1 this.2, ih]
  | @paren a b _ _ iha ihb =>
    intro k rest
    rw [List.cons_append, closed_open hd.pl, List.append_assoc, iha, List.cons_append,
      closed_close hd.pr.1 hd.pr.2, ihb]
  | @bracket a b _ _ iha ihb =>
    intro k rest
    rcases hd.br with ⟨h1, h2, h3⟩ | ⟨h1, h2, h3, h4⟩
    · rw [List.cons_append, closed_open h1, List.append_assoc, iha, List.cons_append,
        closed_close h2 h3, ihb]
    · rw [List.cons_append, closed_plain h1 h2, List.append_assoc, iha, List.cons_append,
        closed_plain h3 h4, ihb]

include hd in
theorem wn_closed {l : List Int} (h : WellNested l) : Closed op cl 0 l := by
  have := (wn_skip hd h 0 []).mpr rfl
  simpa using this

theorem closed_append : ∀ (xs ys : List Int) (k : Nat), Closed op cl k xs → Closed op cl 0 ys →
    Closed op cl k (xs ++ ys) := by
  intro xs
  induction xs with
  | nil => intro ys k h1 h2; rw [Closed] at h1; subst h1; exact h2
  | cons t ts ih =>
    intro ys k h1 h2
    rw [List.cons_append, Closed]
    rw [Closed] at h1
    split
    · next ho => rw [if_pos ho] at h1; exact ih _ _ h1 h2
    · next ho =>
      rw [if_neg ho] at h1
      split
      · next hc =>
        rw [if_pos hc] at h1
        exact h1.imp id (fun h => ih _ _ h h2)
      · next hc => rw [if_neg hc] at h1; exact ih _ _ h1 h2

include hd in
theorem wn_drop {l : List Int} (h : WellNested l) : ∀ i, Closed op cl 0 (l.drop i) := by
  induction h with
  | nil => intro i; simp [Closed]
  | @plain t ts hp hts ih =>
    intro i
    cases i with
    | zero => exact wn_closed hd (.plain hp hts)
    | succ i => exact ih i
  | @paren a b ha hb iha ihb =>
    intro i
    cases i with
    | zero => exact wn_closed hd (.paren ha hb)
    | succ i =>
      rw [List.drop_succ_cons, List.drop_append]
      by_cases hi : i ≤ a.length
      · rw [show i - a.length = 0 by omega]
        exact closed_append _ _ _ (iha i) (closed_stop hd.pr.1 hd.pr.2)
      · rw [List.drop_eq_nil_of_le (by omega), List.nil_append,
          show i - a.length = (i - a.length - 1) + 1 by omega, List.drop_succ_cons]
        exact ihb _
  | @bracket a b ha hb iha ihb =>
    intro i
    cases i with
    | zero => exact wn_closed hd (.bracket ha hb)
    | succ i =>
      rw [List.drop_succ_cons, List.drop_append]
      by_cases hi : i ≤ a.length
      · rw [show i - a.length = 0 by omega]
        refine closed_append _ _ _ (iha i) ?_
        rw [List.drop_zero]
        rcases hd.br with ⟨h1, h2, h3⟩ | ⟨h1, h2, h3, h4⟩
        · exact closed_stop h2 h3
        · rw [closed_plain h3 h4]; exact wn_closed hd hb
      · rw [List.drop_eq_nil_of_le (by omega), List.nil_append,
          show i - a.length = (i - a.length - 1) + 1 by omega, List.drop_succ_cons]
        exact ihb _

end closed

/-! ### Slices -/

theorem slice_nil (l : List Int) (q : Nat) : tokSlice l q q = [] := by simp [tokSlice]

theorem slice_cons {l : List Int} {q hi : Nat} {t : Int} (h : q < hi) (ht : l[q]? = some t) :
    tokSlice l q hi = t :: tokSlice l (q + 1) hi := by
  obtain ⟨hl, rfl⟩ := List.getElem?_eq_some_iff.mp ht
  rw [tokSlice, tokSlice, List.drop_eq_getElem_cons hl, show hi - q = (hi - (q + 1)) + 1 by omega,
    List.take_succ_cons]

theorem slice_drop {l : List Int} {b q hi : Nat} (h : b ≤ q) :
    (tokSlice l b hi).drop (q - b) = tokSlice l q hi := by
  rw [tokSlice, tokSlice, List.drop_take, List.drop_drop, show b + (q - b) = q by omega,
    show hi - b - (q - b) = hi - q by omega]

theorem slice_length {l : List Int} {b e : Nat} (h1 : b ≤ e) (h2 : e ≤ l.length) :
    (tokSlice l b e).length = e - b := by
  rw [tokSlice, List.length_take, List.length_drop]; omega

theorem slice_at {l : List Int} {b e : Nat} (h1 : b ≤ e) (h2 : e ≤ l.length) :
    At l b (tokSlice l b e) := At.tokSlice (by omega)

theorem slice_eq_of_at {l : List Int} {b : Nat} {xs : List Int} (h : At l b xs)
    (hl : b + xs.length ≤ l.length) : tokSlice l b (b + xs.length) = xs := by
  apply At.inj (slice_at (by omega) hl) h
  rw [slice_length (by omega) hl]; omega

/-- Nested sequences are balanced in their parentheses. -/
theorem wn_balanced {l : List Int} (h : WellNested l) : BalancedParens l := by
  induction h with
  | nil => exact .nil
  | plain hp _ ih => exact .other hp.1 hp.2.1 ih
  | paren _ _ iha ihb => exact .group rfl rfl iha ihb
  | bracket _ _ iha ihb => exact .other (by decide) (by decide) (iha.append (.other (by decide) (by decide) ihb))

/-- A nested sequence that ends in a closing parenthesis ends in a group. -/
theorem wn_last {l : List Int} (h : WellNested l) : ∀ l', l = l' ++ [Tag.TK_PARENR] →
    ∃ a m, l = a ++ Tag.TK_PARENL :: (m ++ [Tag.TK_PARENR]) ∧ WellNested a ∧ WellNested m := by
  induction h with
  | nil => intro l' h; simp at h
  | @plain t ts hp _ ih =>
    intro l' h
    cases l' with
    | nil =>
      simp at h
      exact absurd h.1 hp.2.1
    | cons u us =>
      rw [List.cons_append] at h
      injection h with h1 h2
      obtain ⟨a, m, rfl, ha, hm⟩ := ih us h2
      exact ⟨t :: a, m, by simp, .plain hp ha, hm⟩
  | @paren a b ha hb iha ihb =>
    intro l' h
    rcases List.eq_nil_or_concat b with rfl | ⟨b', z, rfl⟩
    · exact ⟨[], a, by simp, .nil, ha⟩
    · rw [List.concat_eq_append] at *
      have hz : z = Tag.TK_PARENR := by
        have h2 : (Tag.TK_PARENL :: (a ++ Tag.TK_PARENR :: b')) ++ [z] = l' ++ [Tag.TK_PARENR] := by
          simpa using h
        simpa using (List.append_inj_right' h2 rfl)
      subst hz
      obtain ⟨a2, m, hb2, ha2, hm⟩ := ihb b' rfl
      refine ⟨Tag.TK_PARENL :: (a ++ Tag.TK_PARENR :: a2), m, by simp [hb2], .paren ha ha2, hm⟩
  | @bracket a b ha hb iha ihb =>
    intro l' h
    rcases List.eq_nil_or_concat b with rfl | ⟨b', z, rfl⟩
    · have h2 : (Tag.TK_BRACKETL :: a) ++ [Tag.TK_BRACKETR] = l' ++ [Tag.TK_PARENR] := by
        simpa using h
      have := List.append_inj_right' h2 rfl
      exact absurd this (by decide)
    · rw [List.concat_eq_append] at *
      have hz : z = Tag.TK_PARENR := by
        have h2 : (Tag.TK_BRACKETL :: (a ++ Tag.TK_BRACKETR :: b')) ++ [z] = l' ++ [Tag.TK_PARENR] := by
          simpa using h
        simpa using (List.append_inj_right' h2 rfl)
      subst hz
      obtain ⟨a2, m, hb2, ha2, hm⟩ := ihb b' rfl
      refine ⟨Tag.TK_BRACKETL :: (a ++ Tag.TK_BRACKETR :: a2), m, by simp [hb2], .bracket ha ha2, hm⟩

end SP
end FLPR
