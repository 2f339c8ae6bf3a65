import Verif.Program.TreeSpec
import Verif.StmtParser.EvalLemmas
import Mathlib.Tactic.Linarith
/-!
# Lemmas about program trees and the combinators
-/

namespace FLPR
namespace PP
open Spec
open SP (R SNode Rng Strm PRes PFail up)

/-! ### `squash` -/

theorem mem_consNew {a x : Nat} {l : List Nat} : x ∈ consNew a l ↔ x = a ∨ x ∈ l := by
  cases l with
  | nil => simp [consNew]
  | cons b l =>
    simp only [consNew]
    by_cases h : a = b
    · subst h; simp
    · simp [h]

theorem mem_squash {x : Nat} : ∀ {l : List Nat}, x ∈ squash l ↔ x ∈ l
  | [] => by simp [squash]
  | a :: l => by simp [squash, mem_consNew, mem_squash (l := l)]

theorem squash_nil {l : List Nat} : squash l = [] ↔ l = [] := by
  constructor
  · intro h
    cases l with
    | nil => rfl
    | cons a l =>
      have : a ∈ squash (a :: l) := mem_squash.mpr (by simp)
      rw [h] at this; cases this
  · intro h; subst h; rfl

/-- Two lists one behind the other, written once where they meet. -/
def join : List Nat → List Nat → List Nat
  | [], m => m
  | [a], m => consNew a m
  | a :: b :: l, m => a :: join (b :: l) m

theorem consNew_join (x : Nat) (q m : List Nat) : consNew x (join q m) = join (consNew x q) m := by
  cases q with
  | nil => simp [join, consNew]
  | cons y q =>
    have hj : ∃ z, join (y :: q) m = y :: z := by
      cases q with
      | nil =>
        cases m with
        | nil => exact ⟨_, rfl⟩
        | cons b m =>
          simp only [join, consNew]
          split
          · rename_i h; subst h; exact ⟨_, rfl⟩
          · exact ⟨_, rfl⟩
      | cons z q => exact ⟨_, rfl⟩
    obtain ⟨z, hz⟩ := hj
    by_cases hxy : x = y
    · have h1 : consNew x (y :: q) = y :: q := by simp [consNew, hxy]
      rw [h1, hz, consNew, if_pos hxy]
    · have h1 : consNew x (y :: q) = x :: y :: q := by simp [consNew, hxy]
      rw [h1, join, hz, consNew, if_neg hxy]

theorem squash_append : ∀ (l m : List Nat), squash (l ++ m) = join (squash l) (squash m)
  | [], m => by simp [squash, join]
  | a :: l, m => by simp only [List.cons_append, squash]; rw [squash_append l m, consNew_join]

theorem join_nil : ∀ l : List Nat, join l [] = l
  | [] => rfl
  | [a] => rfl
  | a :: b :: l => by rw [join, join_nil]

theorem join_range : ∀ n a k, join (List.range' a n) (List.range' (a + n) k) = List.range' a (n + k)
  | 0, a, k => by simp [join]
  | 1, a, k => by
    cases k with
    | zero => simp [join_nil]
    | succ k =>
      rw [show 1 + (k + 1) = (k + 1) + 1 by omega]
      simp only [List.range', join, consNew]
      rw [if_neg (by omega)]
  | n + 2, a, k => by
    have := join_range (n + 1) (a + 1) k
    simp only [List.range'] at this ⊢
    simp only [join]
    rw [show a + 1 + (n + 1) = a + (n + 2) by omega] at this
    rw [this, show n + 2 + k = (n + 1 + k) + 1 by omega]
    simp [List.range']

theorem join_range_shared : ∀ n a k, join (List.range' a (n + 1)) (List.range' (a + n) (k + 1)) =
    List.range' a (n + k + 1)
  | 0, a, k => by simp [join, List.range', consNew]
  | n + 1, a, k => by
    have := join_range_shared n (a + 1) k
    rw [show n + 1 + k + 1 = (n + k + 1) + 1 by omega]
    simp only [List.range'] at this ⊢
    simp only [join]
    rw [show a + 1 + n = a + (n + 1) by omega] at this
    rw [this]

/-- The statements `l` are those from `a` up to `b`, the one at `b` perhaps included. -/
def Span (a : Nat) (l : List Nat) (b : Nat) : Prop :=
  a ≤ b ∧ ∃ e, a ≤ e ∧ (e = b ∨ e = b + 1) ∧ squash l = List.range' a (e - a)

theorem Span.nil (a : Nat) : Span a [] a := ⟨Nat.le_refl _, a, Nat.le_refl _, .inl rfl, by simp [squash]⟩

theorem Span.one {a b : Nat} (h : b = a ∨ b = a + 1) : Span a [a] b :=
  ⟨by omega, a + 1, by omega, by omega, by simp [squash, consNew]⟩

theorem Span.append {a m b : Nat} {l l' : List Nat} (h1 : Span a l m) (h2 : Span m l' b) :
    Span a (l ++ l') b := by
  obtain ⟨ham, e1, ha1, he1, hs1⟩ := h1
  obtain ⟨hmb, e2, ha2, he2, hs2⟩ := h2
  by_cases hl : l' = []
  · subst hl
    have : e2 = m := by
      simp only [squash] at hs2
      have := congrArg List.length hs2
      simp at this; omega
    have hb : b = m := by omega
    subst hb
    exact ⟨ham, e1, ha1, he1, by simpa using hs1⟩
  · have hlt : m < e2 := by
      rcases Nat.lt_or_ge m e2 with h | h
      · exact h
      · rw [Nat.sub_eq_zero_of_le h] at hs2
        exact absurd (squash_nil.mp (by simpa using hs2)) hl
    refine ⟨by omega, e2, by omega, he2, ?_⟩
    rw [squash_append, hs1, hs2]
    rcases he1 with rfl | rfl
    · have := join_range (e1 - a) a (e2 - e1)
      rw [show a + (e1 - a) = e1 by omega] at this
      rw [this]; congr 1; omega
    · have := join_range_shared (m - a) a (e2 - m - 1)
      rw [show a + (m - a) = m by omega, show m - a + 1 = m + 1 - a by omega,
        show e2 - m - 1 + 1 = e2 - m by omega] at this
      rw [this]; congr 1; omega

/-! ### Ranges -/

theorem range_ne {r : Rng} {b e : Nat} (h : b < e) (hr : r = some (b, e)) : r.isEmpty = false := by
  subst hr; simp [Rng.isEmpty]; omega

theorem pushBack_ok {r adj r' : Rng} {l m : List Nat} (hr : RangeOf r l) (ha : RangeOf adj m)
    (hs : (l ++ m).Pairwise (· ≤ ·)) (h : r.pushBack adj = .ok r') : RangeOf r' (l ++ m) := by
  rcases ha with ⟨rfl, he⟩ | ⟨ab, ae, hlt, rfl, hm⟩
  · have : r' = r := by
      cases adj with
      | none => simpa [Rng.pushBack] using h.symm
      | some q =>
        obtain ⟨a, b⟩ := q
        have hab : a = b := by simpa [Rng.isEmpty] using he
        simp [Rng.pushBack, hab] at h; exact h.symm
    subst this; simpa using hr
  · rcases hr with ⟨rfl, he⟩ | ⟨rb, re, hlt', rfl, hl⟩
    · have : r' = some (ab, ae) := by
        cases r with
        | none =>
          have : ¬ ab = ae := by omega
          simp [Rng.pushBack, this] at h; exact h.symm
        | some q =>
          obtain ⟨a, b⟩ := q
          have hab : a = b := by simpa [Rng.isEmpty] using he
          have : ¬ ab = ae := by omega
          simp [Rng.pushBack, hab, this] at h; exact h.symm
      subst this; exact .inr ⟨ab, ae, hlt, rfl, by simpa using hm⟩
    · have h1 : ¬ ab = ae := by omega
      have h2 : ¬ rb = re := by omega
      simp only [Rng.pushBack, h1, h2, if_false] at h
      by_cases h3 : ae = re
      · simp only [h3, ne_eq, not_true, if_false] at h
        injection h with h; subst h
        subst h3
        have hab : ae - 1 ≤ ab := by
          have h4 : ae - 1 ∈ l := mem_squash.mp (by rw [hl, List.mem_range'_1]; omega)
          have h5 : ab ∈ m := mem_squash.mp (by rw [hm, List.mem_range'_1]; omega)
          exact (List.pairwise_append.mp hs).2.2 _ h4 _ h5
        have hab' : ab = ae - 1 := by omega
        refine .inr ⟨rb, ae, hlt', rfl, ?_⟩
        rw [squash_append, hl, hm, hab']
        have := join_range_shared (ae - 1 - rb) rb 0
        rw [show rb + (ae - 1 - rb) = ae - 1 by omega, show ae - 1 - rb + 1 = ae - rb by omega] at this
        rw [show ae - (ae - 1) = 0 + 1 by omega, this]
      · simp only [ne_eq, h3, not_false_iff, if_true] at h
        by_cases h4 : re = ab
        · subst h4
          rw [if_pos rfl] at h
          injection h with h; subst h
          refine .inr ⟨rb, ae, by omega, rfl, ?_⟩
          rw [squash_append, hl, hm]
          have := join_range (re - rb) rb (ae - re)
          rw [show rb + (re - rb) = re by omega] at this
          rw [this]; congr 1; omega
        · rw [if_neg h4] at h; cases h

/-- The leaves of some branches come in order. -/
abbrev Ordered (ks : List PNode) : Prop := (stmtsOfAll ks).Pairwise (· ≤ ·)

theorem _root_.FLPR.Spec.TreeOk.range {k : PNode} (h : TreeOk k) : RangeOf k.range (leavesOf k) := by
  obtain ⟨t, r, i, ks⟩ := k
  rw [TreeOk] at h
  exact h.1

theorem pushAll_ok : ∀ (ks : List PNode) {r r' : Rng} {l : List Nat}, RangeOf r l → TreesOk ks →
    (l ++ stmtsOfAll ks).Pairwise (· ≤ ·) → pushAll r ks = .ok r' → RangeOf r' (l ++ stmtsOfAll ks)
  | [], r, r', l, hr, _, _, h => by
    simp only [pushAll] at h; injection h with h; subst h; simpa [stmtsOfAll] using hr
  | k :: ks, r, r', l, hr, hk, hs, h => by
    simp only [TreesOk] at hk
    simp only [pushAll] at h
    rbind h with q hq
    simp only [stmtsOfAll] at hs ⊢
    rw [← List.append_assoc] at hs ⊢
    exact pushAll_ok ks (pushBack_ok hr hk.2.1.range (List.pairwise_append.mp hs).1 hq) hk.2.2 hs h

theorem stmtsOfAll_append : ∀ a b : List PNode, stmtsOfAll (a ++ b) = stmtsOfAll a ++ stmtsOfAll b
  | [], b => by simp [stmtsOfAll]
  | k :: a, b => by simp [stmtsOfAll, stmtsOfAll_append a b]

theorem treesOk_append : ∀ {a b : List PNode}, TreesOk (a ++ b) ↔ TreesOk a ∧ TreesOk b
  | [], b => by simp [TreesOk]
  | k :: a, b => by simp [TreesOk, treesOk_append (a := a) (b := b), and_assoc]

/-! ### Nodes under construction -/

/-- A node that is being built up: not for a statement, its branches fine so far. -/
structure Acc (n : PNode) : Prop where
  inner : n.stmt = none
  trees : TreesOk n.kids

theorem Acc.new (tag : Int) (r : Rng) : Acc (.node tag r none []) := ⟨rfl, by simp [PNode.kids, TreesOk]⟩

theorem Acc.stmts {n : PNode} (h : Acc n) : leavesOf n = stmtsOfAll n.kids := by
  obtain ⟨t, r, i, ks⟩ := n
  have : i = none := h.inner
  subst this; rw [leavesOf]; rfl

/-- A tree that may be put under a node. -/
structure Donor (d : PNode) : Prop where
  ok : TreeOk d
  leaf : d.stmt.isSome = true → d.tag ≠ Tag.HOIST

theorem hoistBack_tag (a d : PNode) : (hoistBack a d).tag = a.tag := by
  obtain ⟨t, r, i, ks⟩ := a
  obtain ⟨dt, dr, di, dks⟩ := d
  simp only [hoistBack]; split <;> rfl

theorem hoistBack_acc {a d : PNode} (ha : Acc a) (hd : Donor d) :
    Acc (hoistBack a d) ∧ leavesOf (hoistBack a d) = leavesOf a ++ leavesOf d := by
  obtain ⟨t, r, i, ks⟩ := a
  obtain ⟨dt, dr, di, dks⟩ := d
  have hi : i = none := ha.inner
  subst hi
  have hks : TreesOk ks := ha.trees
  have hd1 := hd.ok
  rw [TreeOk] at hd1
  by_cases hh : dt = Tag.HOIST
  · have hdi : di = none := by
      cases di with
      | none => rfl
      | some j => exact absurd hh (hd.leaf rfl)
    subst hdi
    simp only [hoistBack, hh, if_true]
    refine ⟨⟨rfl, treesOk_append.mpr ⟨hks, hd1.2.2⟩⟩, ?_⟩
    simp only [leavesOf, stmtsOfAll_append]
  · simp only [hoistBack, hh, if_false]
    refine ⟨⟨rfl, treesOk_append.mpr ⟨hks, ?_⟩⟩, ?_⟩
    · rw [TreesOk]
      exact ⟨hh, hd.ok, by simp [TreesOk]⟩
    · rw [leavesOf, leavesOf, stmtsOfAll_append, stmtsOfAll, stmtsOfAll]; simp

theorem cover_ok {a n : PNode} (ha : Acc a) (ho : (leavesOf a).Pairwise (· ≤ ·)) (h : coverBranches a = .ok n) :
    TreeOk n ∧ n.stmt = none ∧ leavesOf n = leavesOf a ∧ n.tag = a.tag := by
  obtain ⟨t, r, i, ks⟩ := a
  have hi : i = none := ha.inner
  subst hi
  simp only [coverBranches] at h
  rbind h with q hq
  injection h with h; subst h
  rw [leavesOf] at ho
  have := pushAll_ok ks (l := []) (.inl ⟨rfl, rfl⟩) ha.trees (by simpa using ho) hq
  refine ⟨?_, rfl, by simp [leavesOf], rfl⟩
  rw [TreeOk, leavesOf]
  exact ⟨by simpa using this, by simp, ha.trees⟩

/-- Covering a finished tree again. -/
theorem recover_ok {a n : PNode} (ha : Donor a) (ho : (leavesOf a).Pairwise (· ≤ ·)) (h : coverBranches a = .ok n) :
    Donor n ∧ leavesOf n = leavesOf a := by
  have h0 := ha.ok
  obtain ⟨t, r, i, ks⟩ := a
  cases i with
  | none =>
    rw [TreeOk] at h0
    obtain ⟨h1, h2, h3, h4⟩ := cover_ok (a := .node t r none ks) ⟨rfl, h0.2.2⟩ ho h
    exact ⟨⟨h1, by simp [h2]⟩, h3⟩
  | some i =>
    simp only [coverBranches] at h
    injection h with h; subst h
    rw [TreeOk] at h0
    refine ⟨⟨?_, ha.leaf⟩, by simp [leavesOf]⟩
    rw [TreeOk]
    refine ⟨.inr ⟨i, i + 1, by omega, rfl, ?_⟩, h0.2⟩
    simp [leavesOf, squash, consNew]

theorem leaf_donor {tag : Int} {i : Nat} (h : tag ≠ Tag.HOIST) :
    Donor (.node tag (some (i, i + 1)) (some i) []) := by
  refine ⟨?_, fun _ => h⟩
  rw [TreeOk]
  exact ⟨.inr ⟨i, i + 1, by omega, rfl, by simp [leavesOf, squash, consNew]⟩, by simp, by simp [TreesOk]⟩

end PP
end FLPR
