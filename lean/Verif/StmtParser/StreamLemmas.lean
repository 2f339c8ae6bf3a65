import Verif.StmtParser.StreamSpec
import Verif.FileLine.Lemmas
/-! # Lemmas about `TT_Stream` -/

namespace FLPR
namespace SP
open Spec

theorem parenL_ne_R : Tag.TK_PARENL ≠ Tag.TK_PARENR := by decide
theorem parenL_ne_bad : Tag.TK_PARENL ≠ Tag.BAD := by decide
theorem parenR_ne_bad : Tag.TK_PARENR ≠ Tag.BAD := by decide

namespace Strm

@[simp] theorem goto_all (s : Strm) (p : Nat) : (s.goto p).all = s.all := rfl
@[simp] theorem goto_lo (s : Strm) (p : Nat) : (s.goto p).lo = s.lo := rfl
@[simp] theorem goto_hi (s : Strm) (p : Nat) : (s.goto p).hi = s.hi := rfl
@[simp] theorem goto_pos (s : Strm) (p : Nat) : (s.goto p).pos = p := rfl
@[simp] theorem goto_goto (s : Strm) (p q : Nat) : (s.goto p).goto q = s.goto q := rfl
@[simp] theorem goto_self (s : Strm) : s.goto s.pos = s := rfl

theorem len_tags (s : Strm) : (tagsOf s).length = s.all.length := by simp [tagsOf]

theorem deref_of_tags {s : Strm} {i : Nat} {t : Int} (h : (tagsOf s)[i]? = some t) :
    ∃ k, derefTok s.all i = .ok k ∧ k.token = t := by
  have hlt : i < s.all.length := by
    have := (List.getElem?_eq_some_iff.mp h).1
    simpa [tagsOf] using this
  refine ⟨s.all.getD i badTok, by simp [derefTok, hlt], ?_⟩
  rw [tagsOf, List.getElem?_map] at h
  rw [List.getElem?_eq_getElem hlt] at h
  simp only [Option.map_some, Option.some.injEq] at h
  rw [List.getD_eq_getElem?_getD, List.getElem?_eq_getElem hlt]
  simpa using h

theorem peek_of_tags {s : Strm} {t : Int} (h : (tagsOf s)[s.pos]? = some t) (hp : s.pos ≠ s.hi) :
    s.peek = .ok t := by
  obtain ⟨k, hk, rfl⟩ := deref_of_tags h
  simp [peek, hp, hk]

theorem peek_end {s : Strm} (h : s.pos = s.hi) : s.peek = .ok Tag.BAD := by simp [peek, h]

theorem consume_one {s : Strm} (h : s.pos ≤ s.all.length) : s.consume 1 = .ok (s.goto (s.pos + 1)) := by
  simp [consume, h]

theorem curr_of_tags {s : Strm} {t : Int} (h : (tagsOf s)[s.pos - 1]? = some t) (hp : s.lo < s.pos) :
    s.curr = .ok t := by
  obtain ⟨k, hk, rfl⟩ := deref_of_tags h
  have h1 : s.pos ≠ s.lo := by omega
  have h2 : s.pos ≠ 0 := by omega
  simp [curr, currTT, h1, h2, hk]

theorem curr_begin {s : Strm} (h : s.pos = s.lo) : s.curr = .ok Tag.BAD := by
  simp [curr, currTT, h, badTok]

theorem putBack_ok {s : Strm} (h : s.lo < s.pos) : s.putBack = .ok (s.goto (s.pos - 1)) := by
  have h1 : s.pos ≠ s.lo := by omega
  have h2 : s.pos ≠ 0 := by omega
  simp [putBack, h1, h2]

theorem peek_goto {s : Strm} {p : Nat} {t : Int} (h : (tagsOf s)[p]? = some t) (hp : p ≠ s.hi) :
    (s.goto p).peek = .ok t := peek_of_tags (s := s.goto p) h hp

theorem curr_goto {s : Strm} {p : Nat} {t : Int} (h : (tagsOf s)[p]? = some t) (hp : s.lo ≤ p) :
    (s.goto (p + 1)).curr = .ok t :=
  curr_of_tags (s := s.goto (p + 1)) (show (tagsOf s)[p + 1 - 1]? = some t by simpa using h)
    (by simp; omega)

theorem putBack_begin {s : Strm} (h : s.pos = s.lo) : s.putBack = .ok s := by
  simp [putBack, h]

end Strm

/-- The tags at and after index `i`. -/
def At (l : List Int) (i : Nat) (xs : List Int) : Prop := ∀ k (h : k < xs.length), l[i + k]? = some xs[k]

theorem At.nil (l : List Int) (i : Nat) : At l i [] := by intro k h; simp at h

theorem At.cons {l : List Int} {i : Nat} {x : Int} {xs : List Int} :
    At l i (x :: xs) ↔ l[i]? = some x ∧ At l (i + 1) xs := by
  constructor
  · intro h
    refine ⟨h 0 (by simp), fun k hk => ?_⟩
    have := h (k + 1) (by simpa using hk)
    simpa [Nat.add_assoc, Nat.add_comm 1 k] using this
  · rintro ⟨h0, h1⟩ k hk
    cases k with
    | zero => simpa using h0
    | succ k =>
      have := h1 k (by simpa using hk)
      simpa [Nat.add_assoc, Nat.add_comm 1 k] using this

theorem At.append {l : List Int} {i : Nat} {xs ys : List Int} :
    At l i (xs ++ ys) ↔ At l i xs ∧ At l (i + xs.length) ys := by
  induction xs generalizing i with
  | nil => simp [At.nil]
  | cons x xs ih =>
    rw [List.cons_append, At.cons, At.cons, ih, List.length_cons, and_assoc,
      show i + 1 + xs.length = i + (xs.length + 1) by omega]

theorem At.of_eq {pre xs post : List Int} : At (pre ++ (xs ++ post)) pre.length xs := by
  intro k hk
  rw [List.getElem?_append_right (by omega)]
  simp [List.getElem?_append_left hk, hk]

theorem At.tokSlice {l : List Int} {i n : Nat} (h : i + n ≤ l.length) : At l i ((l.drop i).take n) := by
  have : l = l.take i ++ ((l.drop i).take n ++ (l.drop i).drop n) := by
    rw [List.take_append_drop, List.take_append_drop]
  have hlen : (l.take i).length = i := by simp; omega
  have h2 := @At.of_eq (l.take i) ((l.drop i).take n) ((l.drop i).drop n)
  rw [← this, hlen] at h2
  exact h2

/-- Unclosed sequences: no closing parenthesis without its opening parenthesis. -/
inductive Unclosed : List Int → Prop where
  | bal {m : List Int} : BalancedParens m → Unclosed m
  | more {m u : List Int} : BalancedParens m → Unclosed u → Unclosed (m ++ Tag.TK_PARENL :: u)

/-- Unopened sequences: no opening parenthesis without its closing parenthesis. -/
inductive Unopened : List Int → Prop where
  | bal {m : List Int} : BalancedParens m → Unopened m
  | more {m u : List Int} : Unopened u → BalancedParens m → Unopened (u ++ Tag.TK_PARENR :: m)

theorem _root_.FLPR.Spec.Balanced.append {op cl : Int → Prop} {a b : List Int} (ha : Balanced op cl a)
    (hb : Balanced op cl b) : Balanced op cl (a ++ b) := by
  induction ha with
  | nil => simpa using hb
  | other h1 h2 _ ih => exact .other h1 h2 ih
  | group h1 h2 h3 _ _ ih =>
    rw [List.cons_append, List.append_assoc, List.cons_append]
    exact .group h1 h2 h3 ih

/-- Reading forward, either a closing parenthesis closes the group we are in, or there is none. -/
theorem forward_cases : ∀ (n : Nat) (l : List Int), l.length ≤ n →
    (∃ mid post, l = mid ++ Tag.TK_PARENR :: post ∧ BalancedParens mid) ∨ Unclosed l := by
  intro n
  induction n with
  | zero =>
    intro l hl
    have : l = [] := List.eq_nil_of_length_eq_zero (by omega)
    subst this
    exact .inr (.bal .nil)
  | succ n ih =>
    intro l hl
    cases l with
    | nil => exact .inr (.bal .nil)
    | cons t ts =>
      have hts : ts.length ≤ n := by simpa using hl
      by_cases h1 : t = Tag.TK_PARENR
      · subst h1; exact .inl ⟨[], ts, by simp, .nil⟩
      · by_cases h2 : t = Tag.TK_PARENL
        · subst h2
          rcases ih ts hts with ⟨mid, post, rfl, hm⟩ | hu
          · have hp : post.length ≤ n := by simp at hts; omega
            rcases ih post hp with ⟨mid2, post2, rfl, hm2⟩ | hu
            · refine .inl ⟨Tag.TK_PARENL :: (mid ++ Tag.TK_PARENR :: mid2), post2, by simp, ?_⟩
              exact .group rfl rfl hm hm2
            · right
              cases hu with
              | bal hb => exact .bal (.group rfl rfl hm hb)
              | @more m u hb hu =>
                have : Tag.TK_PARENL :: (mid ++ Tag.TK_PARENR :: (m ++ Tag.TK_PARENL :: u)) =
                    (Tag.TK_PARENL :: (mid ++ Tag.TK_PARENR :: m)) ++ Tag.TK_PARENL :: u := by simp
                rw [this]
                exact .more (.group rfl rfl hm hb) hu
          · exact .inr (.more (m := []) .nil hu)
        · rcases ih ts hts with ⟨mid, post, rfl, hm⟩ | hu
          · exact .inl ⟨t :: mid, post, by simp, .other h2 h1 hm⟩
          · right
            cases hu with
            | bal hb => exact .bal (.other h2 h1 hb)
            | @more m u hb hu =>
              rw [show t :: (m ++ Tag.TK_PARENL :: u) = (t :: m) ++ Tag.TK_PARENL :: u by simp]
              exact .more (.other h2 h1 hb) hu

/-- Reading backward, either an opening parenthesis opens the group we are in, or there is none. -/
theorem backward_cases : ∀ (n : Nat) (l : List Int), l.length ≤ n →
    (∃ pre mid, l = pre ++ Tag.TK_PARENL :: mid ∧ BalancedParens mid) ∨ Unopened l := by
  intro n
  induction n with
  | zero =>
    intro l hl
    have : l = [] := List.eq_nil_of_length_eq_zero (by omega)
    subst this
    exact .inr (.bal .nil)
  | succ n ih =>
    intro l hl
    rcases List.eq_nil_or_concat l with rfl | ⟨ts, t, rfl⟩
    · exact .inr (.bal .nil)
    · rw [List.concat_eq_append] at hl ⊢
      have hts : ts.length ≤ n := by simpa using hl
      by_cases h1 : t = Tag.TK_PARENL
      · subst h1; exact .inl ⟨ts, [], by simp, .nil⟩
      · by_cases h2 : t = Tag.TK_PARENR
        · subst h2
          rcases ih ts hts with ⟨pre, mid, rfl, hm⟩ | hu
          · have hg : BalancedParens (Tag.TK_PARENL :: (mid ++ Tag.TK_PARENR :: [])) :=
              .group rfl rfl hm .nil
            have hp : pre.length ≤ n := by simp at hts; omega
            rcases ih pre hp with ⟨pre2, mid2, rfl, hm2⟩ | hu
            · exact .inl ⟨pre2, mid2 ++ Tag.TK_PARENL :: (mid ++ Tag.TK_PARENR :: []), by simp,
                hm2.append hg⟩
            · right
              cases hu with
              | bal hb =>
                rw [show pre ++ Tag.TK_PARENL :: mid ++ [Tag.TK_PARENR] =
                  pre ++ Tag.TK_PARENL :: (mid ++ Tag.TK_PARENR :: []) by simp]
                exact .bal (hb.append hg)
              | @more m u hu hb =>
                rw [show u ++ Tag.TK_PARENR :: m ++ Tag.TK_PARENL :: mid ++ [Tag.TK_PARENR] =
                  u ++ Tag.TK_PARENR :: (m ++ Tag.TK_PARENL :: (mid ++ Tag.TK_PARENR :: [])) by simp]
                exact .more hu (hb.append hg)
          · exact .inr (.more (m := []) hu .nil)
        · have ho : BalancedParens [t] := .other h1 h2 .nil
          rcases ih ts hts with ⟨pre, mid, rfl, hm⟩ | hu
          · exact .inl ⟨pre, mid ++ [t], by simp, hm.append ho⟩
          · right
            cases hu with
            | bal hb => exact .bal (hb.append ho)
            | @more m u hu hb =>
              rw [show u ++ Tag.TK_PARENR :: m ++ [t] = u ++ Tag.TK_PARENR :: (m ++ [t]) by simp]
              exact .more hu (hb.append ho)

section close

variable {s : Strm} (hh : s.hi ≤ s.all.length) (nb : ∀ t ∈ tagsOf s, t ≠ Tag.BAD)

include hh in
theorem closeLoop_bal {m : List Int} (hm : BalancedParens m) (nb : ∀ t ∈ m, t ≠ Tag.BAD) :
    ∀ (p n : Nat) (d : Int), 0 < d → At (tagsOf s) p m → p + m.length ≤ s.hi →
      Strm.closeLoop (n + m.length) (s.goto p) d = Strm.closeLoop n (s.goto (p + m.length)) d := by
  induction hm with
  | nil => intros; rfl
  | @other t ts h1 h2 _ ih =>
    intro p n d hd ha hl
    rw [At.cons] at ha
    simp only [List.length_cons] at hl ⊢
    rw [← Nat.add_assoc, Strm.closeLoop, if_pos hd,
      Strm.peek_goto ha.1 (by omega)]
    have h1' : t ≠ Tag.TK_PARENL := h1
    have h2' : t ≠ Tag.TK_PARENR := h2
    simp only [Res.ok_bind, if_neg h1', if_neg h2', if_neg (nb t (by simp))]
    rw [Strm.consume_one (by simp; omega)]
    simp only [Res.ok_bind, Strm.goto_goto, Strm.goto_pos]
    rw [ih (fun t ht => nb t (by simp [ht])) (p + 1) n d hd ha.2 (by omega)]
    rw [show p + 1 + ts.length = p + (ts.length + 1) by omega]
  | @group o c a b h1 h2 _ _ iha ihb =>
    intro p n d hd ha hl
    rw [At.cons, At.append, At.cons] at ha
    obtain ⟨ho, haa, hc, hab⟩ := ha
    have h1' : o = Tag.TK_PARENL := h1
    have h2' : c = Tag.TK_PARENR := h2
    subst h1' h2'
    simp only [List.length_cons, List.length_append] at hl ⊢
    rw [show n + (a.length + (b.length + 1) + 1) = (n + b.length + 1) + a.length + 1 by omega]
    rw [Strm.closeLoop, if_pos hd, Strm.peek_goto ho (by omega)]
    simp only [Res.ok_bind, if_neg parenL_ne_R, if_true]
    rw [Strm.consume_one (by simp; omega)]
    simp only [Res.ok_bind, Strm.goto_goto, Strm.goto_pos]
    rw [iha (fun t ht => nb t (by simp [ht])) (p + 1) _ (d + 1) (by omega) haa (by omega)]
    rw [Strm.closeLoop, if_pos (by omega), Strm.peek_goto hc (by omega)]
    simp only [Res.ok_bind, if_true]
    rw [Strm.consume_one (by simp; omega)]
    simp only [Res.ok_bind, Strm.goto_goto, Strm.goto_pos]
    rw [show d + 1 - 1 = d by omega]
    rw [ihb (fun t ht => nb t (by simp [ht])) _ n d hd hab (by omega)]
    congr 2
    omega

include hh in
theorem closeLoop_unclosed {m : List Int} (hm : Unclosed m) (nb : ∀ t ∈ m, t ≠ Tag.BAD) :
    ∀ (p n : Nat) (d : Int), 0 < d → At (tagsOf s) p m → p + m.length = s.hi →
      ∃ d', 0 < d' ∧ Strm.closeLoop (n + m.length + 1) (s.goto p) d = .ok (d', s.goto s.hi) := by
  induction hm with
  | @bal m hb =>
    intro p n d hd ha hl
    refine ⟨d, hd, ?_⟩
    rw [show n + m.length + 1 = (n + 1) + m.length by omega,
      closeLoop_bal hh hb nb p (n + 1) d hd ha (by omega), hl, Strm.closeLoop, if_pos hd,
      Strm.peek_end (by simp)]
    simp only [Res.ok_bind, if_neg parenR_ne_bad.symm, if_neg parenL_ne_bad.symm, if_true]
  | @more m u hb _ ih =>
    intro p n d hd ha hl
    rw [At.append, At.cons] at ha
    obtain ⟨ham, ho, hau⟩ := ha
    simp only [List.length_cons, List.length_append] at hl ⊢
    obtain ⟨d', hd', e⟩ := ih (fun t ht => nb t (by simp [ht])) _ n (d + 1) (by omega) hau (by omega)
    refine ⟨d', hd', ?_⟩
    rw [show n + (m.length + (u.length + 1)) + 1 = (n + u.length + 1 + 1) + m.length by omega,
      closeLoop_bal hh hb (fun t ht => nb t (by simp [ht])) p _ d hd ham (by omega), Strm.closeLoop,
      if_pos hd, Strm.peek_goto ho (by omega)]
    simp only [Res.ok_bind, if_neg parenL_ne_R, if_true]
    rw [Strm.consume_one (by simp; omega)]
    simp only [Res.ok_bind, Strm.goto_goto, Strm.goto_pos]
    exact e

include hh in
theorem beforeLoop_bal {m : List Int} (hm : BalancedParens m) (nb : ∀ t ∈ m, t ≠ Tag.BAD) :
    ∀ (p n : Nat) (d : Int), 0 < d → At (tagsOf s) p m → p + m.length ≤ s.hi →
      Strm.beforeLoop (n + m.length) (s.goto p) d = Strm.beforeLoop n (s.goto (p + m.length)) d := by
  induction hm with
  | nil => intros; rfl
  | @other t ts h1 h2 _ ih =>
    intro p n d hd ha hl
    rw [At.cons] at ha
    simp only [List.length_cons] at hl ⊢
    rw [← Nat.add_assoc, Strm.beforeLoop, if_pos hd,
      Strm.peek_goto ha.1 (by omega)]
    have h1' : t ≠ Tag.TK_PARENL := h1
    have h2' : t ≠ Tag.TK_PARENR := h2
    simp only [Res.ok_bind, if_neg h1', if_neg h2', if_neg (nb t (by simp))]
    rw [Strm.consume_one (by simp; omega)]
    simp only [Res.ok_bind, Strm.goto_goto, Strm.goto_pos]
    rw [ih (fun t ht => nb t (by simp [ht])) (p + 1) n d hd ha.2 (by omega)]
    rw [show p + 1 + ts.length = p + (ts.length + 1) by omega]
  | @group o c a b h1 h2 _ _ iha ihb =>
    intro p n d hd ha hl
    rw [At.cons, At.append, At.cons] at ha
    obtain ⟨ho, haa, hc, hab⟩ := ha
    have h1' : o = Tag.TK_PARENL := h1
    have h2' : c = Tag.TK_PARENR := h2
    subst h1' h2'
    simp only [List.length_cons, List.length_append] at hl ⊢
    rw [show n + (a.length + (b.length + 1) + 1) = (n + b.length + 1) + a.length + 1 by omega]
    rw [Strm.beforeLoop, if_pos hd, Strm.peek_goto ho (by omega)]
    simp only [Res.ok_bind, if_neg parenL_ne_R, if_true]
    rw [Strm.consume_one (by simp; omega)]
    simp only [Res.ok_bind, Strm.goto_goto, Strm.goto_pos]
    rw [iha (fun t ht => nb t (by simp [ht])) (p + 1) _ (d + 1) (by omega) haa (by omega)]
    rw [Strm.beforeLoop, if_pos (by omega), Strm.peek_goto hc (by omega)]
    simp only [Res.ok_bind, if_true]
    rw [if_pos (by omega : d + 1 - 1 > 0), Strm.consume_one (by simp; omega)]
    simp only [Res.ok_bind, Strm.goto_goto, Strm.goto_pos]
    rw [show d + 1 - 1 = d by omega]
    rw [ihb (fun t ht => nb t (by simp [ht])) _ n d hd hab (by omega)]
    congr 2
    omega

include hh in
theorem beforeLoop_unclosed {m : List Int} (hm : Unclosed m) (nb : ∀ t ∈ m, t ≠ Tag.BAD) :
    ∀ (p n : Nat) (d : Int), 0 < d → At (tagsOf s) p m → p + m.length = s.hi →
      ∃ d', 0 < d' ∧ Strm.beforeLoop (n + m.length + 1) (s.goto p) d = .ok (d', s.goto s.hi) := by
  induction hm with
  | @bal m hb =>
    intro p n d hd ha hl
    refine ⟨d, hd, ?_⟩
    rw [show n + m.length + 1 = (n + 1) + m.length by omega,
      beforeLoop_bal hh hb nb p (n + 1) d hd ha (by omega), hl, Strm.beforeLoop, if_pos hd,
      Strm.peek_end (by simp)]
    simp only [Res.ok_bind, if_neg parenR_ne_bad.symm, if_neg parenL_ne_bad.symm, if_true]
  | @more m u hb _ ih =>
    intro p n d hd ha hl
    rw [At.append, At.cons] at ha
    obtain ⟨ham, ho, hau⟩ := ha
    simp only [List.length_cons, List.length_append] at hl ⊢
    obtain ⟨d', hd', e⟩ := ih (fun t ht => nb t (by simp [ht])) _ n (d + 1) (by omega) hau (by omega)
    refine ⟨d', hd', ?_⟩
    rw [show n + (m.length + (u.length + 1)) + 1 = (n + u.length + 1 + 1) + m.length by omega,
      beforeLoop_bal hh hb (fun t ht => nb t (by simp [ht])) p _ d hd ham (by omega), Strm.beforeLoop,
      if_pos hd, Strm.peek_goto ho (by omega)]
    simp only [Res.ok_bind, if_neg parenL_ne_R, if_true]
    rw [Strm.consume_one (by simp; omega)]
    simp only [Res.ok_bind, Strm.goto_goto, Strm.goto_pos]
    exact e

/-- Backward: `p` is the index just after the balanced part plus one, so that `curr` is the token
after it. -/
theorem openLoop_bal {m : List Int} (hm : BalancedParens m) (nb : ∀ t ∈ m, t ≠ Tag.BAD) :
    ∀ (p n : Nat) (d : Int), 0 < d → At (tagsOf s) p m → s.lo ≤ p →
      Strm.openLoop (n + m.length) (s.goto (p + m.length + 1)) d = Strm.openLoop n (s.goto (p + 1)) d := by
  induction hm with
  | nil => intros; rfl
  | @other t ts h1 h2 _ ih =>
    intro p n d hd ha hl
    rw [At.cons] at ha
    simp only [List.length_cons]
    rw [show n + (ts.length + 1) = (n + 1) + ts.length by omega,
      show p + (ts.length + 1) + 1 = (p + 1) + ts.length + 1 by omega,
      ih (fun t ht => nb t (by simp [ht])) (p + 1) (n + 1) d hd ha.2 (by omega), Strm.openLoop,
      if_pos hd, Strm.putBack_ok (by simp; omega)]
    simp only [Res.ok_bind, Strm.goto_goto, Strm.goto_pos, Nat.add_sub_cancel]
    rw [Strm.curr_goto ha.1 (by omega)]
    have h1' : t ≠ Tag.TK_PARENL := h1
    have h2' : t ≠ Tag.TK_PARENR := h2
    simp only [Res.ok_bind, if_neg h1', if_neg h2', if_neg (nb t (by simp))]
  | @group o c a b h1 h2 _ _ iha ihb =>
    intro p n d hd ha hl
    rw [At.cons, At.append, At.cons] at ha
    obtain ⟨ho, haa, hc, hab⟩ := ha
    have h1' : o = Tag.TK_PARENL := h1
    have h2' : c = Tag.TK_PARENR := h2
    subst h1' h2'
    simp only [List.length_cons, List.length_append]
    rw [show n + (a.length + (b.length + 1) + 1) = ((n + 1) + a.length + 1) + b.length by omega,
      show p + (a.length + (b.length + 1) + 1) + 1 = (p + 1 + a.length + 1) + b.length + 1 by omega,
      ihb (fun t ht => nb t (by simp [ht])) _ _ d hd hab (by omega), Strm.openLoop, if_pos hd,
      Strm.putBack_ok (by simp; omega)]
    simp only [Res.ok_bind, Strm.goto_goto, Strm.goto_pos, Nat.add_sub_cancel]
    rw [Strm.curr_goto hc (by omega)]
    simp only [Res.ok_bind, if_neg parenL_ne_R.symm, if_true]
    rw [iha (fun t ht => nb t (by simp [ht])) (p + 1) (n + 1) (d + 1) (by omega) haa (by omega),
      Strm.openLoop, if_pos (by omega), Strm.putBack_ok (by simp; omega)]
    simp only [Res.ok_bind, Strm.goto_goto, Strm.goto_pos, Nat.add_sub_cancel]
    rw [Strm.curr_goto ho (by omega)]
    simp only [Res.ok_bind, if_true]
    rw [show d + 1 - 1 = d by omega]

theorem openLoop_unopened {m : List Int} (hm : Unopened m) (nb : ∀ t ∈ m, t ≠ Tag.BAD) :
    ∀ (n : Nat) (d : Int), 0 < d → At (tagsOf s) s.lo m →
      ∃ d', 0 < d' ∧
        Strm.openLoop (n + m.length + 1) (s.goto (s.lo + m.length + 1)) d = .ok (d', s.goto s.lo) := by
  induction hm with
  | @bal m hb =>
    intro n d hd ha
    refine ⟨d, hd, ?_⟩
    rw [show n + m.length + 1 = (n + 1) + m.length by omega,
      openLoop_bal hb nb s.lo (n + 1) d hd ha (le_refl _), Strm.openLoop, if_pos hd,
      Strm.putBack_ok (by simp)]
    simp only [Res.ok_bind, Strm.goto_goto, Strm.goto_pos, Nat.add_sub_cancel]
    rw [Strm.curr_begin (by simp)]
    simp only [Res.ok_bind, if_neg parenR_ne_bad.symm, if_neg parenL_ne_bad.symm, if_true]
  | @more m u _ hb ih =>
    intro n d hd ha
    rw [At.append, At.cons] at ha
    obtain ⟨hau, hc, ham⟩ := ha
    obtain ⟨d', hd', e⟩ := ih (fun t ht => nb t (by simp [ht])) n (d + 1) (by omega) hau
    refine ⟨d', hd', ?_⟩
    simp only [List.length_cons, List.length_append]
    rw [show n + (u.length + (m.length + 1)) + 1 = (n + u.length + 1 + 1) + m.length by omega,
      show s.lo + (u.length + (m.length + 1)) + 1 = (s.lo + u.length + 1) + m.length + 1 by omega,
      openLoop_bal hb (fun t ht => nb t (by simp [ht])) _ _ d hd ham (by omega), Strm.openLoop,
      if_pos hd, Strm.putBack_ok (by simp; omega)]
    simp only [Res.ok_bind, Strm.goto_goto, Strm.goto_pos, Nat.add_sub_cancel]
    rw [Strm.curr_goto hc (by omega)]
    simp only [Res.ok_bind, if_neg parenL_ne_R.symm, if_true]
    exact e

/-- What the search for a closing parenthesis does after the two tokens it skips. -/
theorem closeFrom (hg : GoodStream s) (h0 : (tagsOf s)[s.pos]? = some Tag.TK_PARENL)
    (h1 : s.pos + 1 < s.hi) :
    (∀ mid, At (tagsOf s) (s.pos + 2) (mid ++ [Tag.TK_PARENR]) → BalancedParens mid →
      s.pos + 2 + mid.length < s.hi →
      s.moveToCloseParen = .ok (true, s.goto (s.pos + 2 + mid.length + 1)) ∧
      s.moveBeforeCloseParen = .ok (true, s.goto (s.pos + 2 + mid.length))) ∧
    ((∀ mid, At (tagsOf s) (s.pos + 2) (mid ++ [Tag.TK_PARENR]) → BalancedParens mid →
      ¬ s.pos + 2 + mid.length < s.hi) →
      s.moveToCloseParen = .ok (false, s.goto s.hi) ∧
      s.moveBeforeCloseParen = .ok (false, s.goto s.hi)) := by
  have hh := hg.hi_len
  have hb : ∀ t ∈ tagsOf s, t ≠ Tag.BAD := by
    intro t ht
    obtain ⟨k, hk, rfl⟩ := List.mem_map.mp ht
    exact hg.noBad k hk
  have hnb : ∀ {i : Nat} {m : List Int}, At (tagsOf s) i m → ∀ t ∈ m, t ≠ Tag.BAD := by
    intro i m ha t ht
    obtain ⟨k, hk, rfl⟩ := List.mem_iff_getElem.mp ht
    exact hb _ (List.mem_of_getElem? (ha k hk))
  have hpk : s.peek = .ok Tag.TK_PARENL := Strm.peek_of_tags h0 (by omega)
  have hex : s.expectTok Tag.TK_PARENL = .ok (s.goto (s.pos + 1)) := by
    rw [Strm.expectTok, hpk, Res.ok_bind, Strm.consume_one (by omega), Res.ok_bind, if_neg (by simp)]
  have hc2 : (s.goto (s.pos + 1)).consume 1 = .ok (s.goto (s.pos + 2)) := by
    rw [Strm.consume_one (by simp; omega)]; rfl
  constructor
  · intro mid ha hm hl
    rw [At.append, At.cons] at ha
    obtain ⟨ham, hc, -⟩ := ha
    constructor
    · rw [Strm.moveToCloseParen, hex, Res.ok_bind, hc2, Res.ok_bind,
        show s.all.length + 3 = (s.all.length + 1 - mid.length + 1 + 1) + mid.length by omega,
        closeLoop_bal hh hm (hnb ham) _ _ 1 (by omega) ham (by omega), Strm.closeLoop,
        if_pos (by omega), Strm.peek_goto hc (by omega)]
      simp only [Res.ok_bind, if_true]
      rw [Strm.consume_one (by simp; omega)]
      simp [Strm.closeLoop]
    · rw [Strm.moveBeforeCloseParen, hex, Res.ok_bind, hc2, Res.ok_bind,
        show s.all.length + 4 = (s.all.length + 2 - mid.length + 1 + 1) + mid.length by omega,
        beforeLoop_bal hh hm (hnb ham) _ _ 1 (by omega) ham (by omega), Strm.beforeLoop,
        if_pos (by omega), Strm.peek_goto hc (by omega)]
      simp [Strm.beforeLoop]
  · intro hno
    have hsl : At (tagsOf s) (s.pos + 2) (((tagsOf s).drop (s.pos + 2)).take (s.hi - (s.pos + 2))) :=
      At.tokSlice (by rw [Strm.len_tags]; omega)
    have hlen : (((tagsOf s).drop (s.pos + 2)).take (s.hi - (s.pos + 2))).length = s.hi - (s.pos + 2) := by
      rw [List.length_take, List.length_drop, Strm.len_tags]; omega
    generalize hl : ((tagsOf s).drop (s.pos + 2)).take (s.hi - (s.pos + 2)) = l at hsl hlen
    rcases forward_cases _ l (le_refl _) with ⟨mid, post, rfl, hm⟩ | hu
    · have h2 : At (tagsOf s) (s.pos + 2) (mid ++ [Tag.TK_PARENR]) := by
        rw [show mid ++ Tag.TK_PARENR :: post = (mid ++ [Tag.TK_PARENR]) ++ post by simp, At.append] at hsl
        exact hsl.1
      have := hno mid h2 hm
      simp at hlen
      omega
    · constructor
      · obtain ⟨d', hd', e⟩ := closeLoop_unclosed hh hu (hnb hsl) (s.pos + 2)
          (s.all.length + 2 - l.length) 1 (by omega) hsl (by omega)
        rw [Strm.moveToCloseParen, hex, Res.ok_bind, hc2, Res.ok_bind,
          show s.all.length + 3 = s.all.length + 2 - l.length + l.length + 1 by omega, e]
        simp
        omega
      · obtain ⟨d', hd', e⟩ := beforeLoop_unclosed hh hu (hnb hsl) (s.pos + 2)
          (s.all.length + 3 - l.length) 1 (by omega) hsl (by omega)
        rw [Strm.moveBeforeCloseParen, hex, Res.ok_bind, hc2, Res.ok_bind,
          show s.all.length + 4 = s.all.length + 3 - l.length + l.length + 1 by omega, e]
        simp
        omega

theorem At.inj {l : List Int} {i : Nat} : ∀ {xs ys : List Int}, At l i xs → At l i ys →
    xs.length = ys.length → xs = ys := by
  intro xs ys hx hy hl
  apply List.ext_getElem hl
  intro k h1 h2
  have := hx k h1
  rw [hy k h2] at this
  exact (Option.some.inj this).symm

theorem parenPair_at {l : List Int} {i j : Nat} : ParenPair l i j ↔
    ∃ mid, j = i + 1 + mid.length ∧ BalancedParens mid ∧
      At l i (Tag.TK_PARENL :: (mid ++ [Tag.TK_PARENR])) := by
  constructor
  · rintro ⟨pre, mid, post, rfl, rfl, rfl, hm⟩
    refine ⟨mid, rfl, hm, ?_⟩
    have := @At.of_eq pre (Tag.TK_PARENL :: (mid ++ [Tag.TK_PARENR])) post
    simpa using this
  · rintro ⟨mid, rfl, hm, ha⟩
    have hlen : i + (mid.length + 2) ≤ l.length := by
      have := ha (mid.length + 1) (by simp)
      have := (List.getElem?_eq_some_iff.mp this).1
      omega
    have hs := @At.tokSlice l i (mid.length + 2) hlen
    have heq := At.inj hs ha (by simp; omega)
    refine ⟨l.take i, mid, (l.drop i).drop (mid.length + 2), ?_, by simp; omega, by simp; omega, hm⟩
    rw [show Tag.TK_PARENL :: (mid ++ Tag.TK_PARENR :: (l.drop i).drop (mid.length + 2)) =
      (Tag.TK_PARENL :: (mid ++ [Tag.TK_PARENR])) ++ (l.drop i).drop (mid.length + 2) by simp, ← heq,
      List.take_append_drop, List.take_append_drop]

theorem balanced_tail {t : Int} {ts : List Int} (h : BalancedParens (t :: ts))
    (h1 : t ≠ Tag.TK_PARENL) : BalancedParens ts := by
  cases h with
  | other _ _ h => exact h
  | group ho _ _ _ => exact absurd ho h1

end close

end SP
end FLPR
