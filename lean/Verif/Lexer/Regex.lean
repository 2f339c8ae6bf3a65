import Verif.Base
/-!
# The flex matching discipline

Regular expressions with their language, a matcher by derivatives, and the choice flex makes: the
longest match, and among those the rule that comes first.
-/

namespace FLPR.Flex

/-- Regular expressions over characters. -/
inductive RE where
  | empty
  | eps
  | cls (p : Char → Bool)
  | seq (a b : RE)
  | alt (a b : RE)
  | star (a : RE)

/-- The language of a regular expression (the specification). -/
inductive Matches : RE → Str → Prop where
  | eps : Matches .eps []
  | cls {p c} : p c = true → Matches (.cls p) [c]
  | seq {a b s t} : Matches a s → Matches b t → Matches (.seq a b) (s ++ t)
  | altL {a b s} : Matches a s → Matches (.alt a b) s
  | altR {a b s} : Matches b s → Matches (.alt a b) s
  | starNil {a} : Matches (.star a) []
  | starCons {a s t} : Matches a s → Matches (.star a) t → Matches (.star a) (s ++ t)

namespace RE

def nullable : RE → Bool
  | empty => false
  | eps => true
  | cls _ => false
  | seq a b => a.nullable && b.nullable
  | alt a b => a.nullable || b.nullable
  | star _ => true

def isEmpty : RE → Bool
  | empty => true
  | _ => false

/-- Concatenation, dropping what cannot match. -/
def mkSeq (a b : RE) : RE := if a.isEmpty then .empty else .seq a b
/-- Alternative, dropping what cannot match. -/
def mkAlt (a b : RE) : RE := if a.isEmpty then b else if b.isEmpty then a else .alt a b

def der (c : Char) : RE → RE
  | empty => empty
  | eps => empty
  | cls p => if p c then eps else empty
  | seq a b =>
    if a.nullable then mkAlt (mkSeq (der c a) b) (der c b) else mkSeq (der c a) b
  | alt a b => mkAlt (der c a) (der c b)
  | star a => mkSeq (der c a) (star a)

/-- Length of the longest prefix matched; `n` characters are already read, `best` is the longest
match among them. -/
def longestGo : RE → Str → Nat → Option Nat → Option Nat
  | r, [], n, best => if r.nullable then some n else best
  | r, c :: cs, n, best =>
    if r.isEmpty then best
    else longestGo (der c r) cs (n + 1) (if r.nullable then some n else best)

/-- Length of the longest prefix matched by the expression. -/
def longest (r : RE) (s : Str) : Option Nat := longestGo r s 0 none

end RE
open RE

/-- The choice of a rule: longest match first, then the earliest rule.  Empty matches are no
matches. -/
def pick {α : Type} : List (RE × α) → Str → Option (Nat × α)
  | [], _ => none
  | (r, a) :: rules, s =>
    match r.longest s, pick rules s with
    | some n, some (m, b) => if 0 < n ∧ m ≤ n then some (n, a) else some (m, b)
    | some n, none => if 0 < n then some (n, a) else none
    | none, o => o

/-! ## Correctness of the matcher -/

theorem Matches.nullable_iff (r : RE) : r.nullable = true ↔ Matches r [] := by
  induction r with
  | empty => simp [nullable]; intro h; cases h
  | eps => simp [nullable]; exact .eps
  | cls p =>
    simp [nullable]; intro h
    generalize he : ([] : Str) = s at h
    cases h; simp at he
  | seq a b iha ihb =>
    simp only [nullable, Bool.and_eq_true, iha, ihb]
    constructor
    · rintro ⟨h1, h2⟩; exact Matches.seq h1 h2
    · intro h
      generalize he : ([] : Str) = s at h
      cases h with
      | seq h1 h2 =>
        obtain ⟨rfl, rfl⟩ := List.append_eq_nil_iff.mp he.symm
        exact ⟨h1, h2⟩
  | alt a b iha ihb =>
    simp only [nullable, Bool.or_eq_true, iha, ihb]
    constructor
    · rintro (h | h)
      · exact .altL h
      · exact .altR h
    · intro h
      cases h with
      | altL h => exact Or.inl h
      | altR h => exact Or.inr h
  | star a _ => simp [nullable]; exact .starNil

theorem Matches.isEmpty_false (r : RE) (s : Str) (h : r.isEmpty = true) : ¬ Matches r s := by
  cases r <;> simp [RE.isEmpty] at h
  intro h; cases h

theorem Matches.mkSeq_iff (a b : RE) (s : Str) : Matches (mkSeq a b) s ↔ Matches (.seq a b) s := by
  unfold mkSeq
  split
  · rename_i h
    constructor
    · intro h; cases h
    · intro h'
      cases h' with
      | seq h1 _ => exact absurd h1 (Matches.isEmpty_false _ _ h)
  · rfl

theorem Matches.mkAlt_iff (a b : RE) (s : Str) : Matches (mkAlt a b) s ↔ Matches (.alt a b) s := by
  unfold mkAlt
  split
  · rename_i h
    constructor
    · exact .altR
    · intro h'
      cases h' with
      | altL h1 => exact absurd h1 (Matches.isEmpty_false _ _ h)
      | altR h1 => exact h1
  · split
    · rename_i h
      constructor
      · exact .altL
      · intro h'
        cases h' with
        | altR h1 => exact absurd h1 (Matches.isEmpty_false _ _ h)
        | altL h1 => exact h1
    · rfl

theorem Matches.seq_iff (a b : RE) (s : Str) :
    Matches (.seq a b) s ↔ ∃ u v, s = u ++ v ∧ Matches a u ∧ Matches b v := by
  constructor
  · intro h; cases h with
    | seq h1 h2 => exact ⟨_, _, rfl, h1, h2⟩
  · rintro ⟨u, v, rfl, h1, h2⟩; exact .seq h1 h2

theorem Matches.alt_iff (a b : RE) (s : Str) :
    Matches (.alt a b) s ↔ Matches a s ∨ Matches b s := by
  constructor
  · intro h; cases h with
    | altL h => exact Or.inl h
    | altR h => exact Or.inr h
  · rintro (h | h)
    · exact .altL h
    · exact .altR h

theorem Matches.cls_iff (p : Char → Bool) (s : Str) :
    Matches (.cls p) s ↔ ∃ c, s = [c] ∧ p c = true := by
  constructor
  · intro h; cases h with
    | cls h => exact ⟨_, rfl, h⟩
  · rintro ⟨c, rfl, h⟩; exact .cls h

theorem Matches.eps_iff (s : Str) : Matches .eps s ↔ s = [] := by
  constructor
  · intro h; cases h; rfl
  · rintro rfl; exact .eps

/-- A non-empty match of a star starts with a non-empty match of its body. -/
theorem Matches.star_cons {a : RE} {c : Char} {s : Str} (h : Matches (.star a) (c :: s)) :
    ∃ u v, s = u ++ v ∧ Matches a (c :: u) ∧ Matches (.star a) v := by
  generalize hr : RE.star a = r at h
  generalize hs : c :: s = w at h
  induction h generalizing s with
  | eps => cases hr
  | cls _ => cases hr
  | seq _ _ => cases hr
  | altL _ => cases hr
  | altR _ => cases hr
  | starNil => cases hs
  | @starCons a' s1 t1 h1 h2 _ ih2 =>
    cases hr
    cases s1 with
    | nil => exact ih2 rfl hs
    | cons d u =>
      simp at hs
      obtain ⟨rfl, rfl⟩ := hs
      exact ⟨u, t1, rfl, h1, h2⟩

theorem Matches.der_iff (c : Char) (r : RE) (s : Str) : Matches (der c r) s ↔ Matches r (c :: s) := by
  induction r generalizing s with
  | empty =>
    constructor
    · intro h; cases h
    · intro h; cases h
  | eps =>
    constructor
    · intro h; cases h
    · intro h; cases h
  | cls p =>
    simp only [der]
    split
    · rename_i hp
      rw [Matches.eps_iff, Matches.cls_iff]
      constructor
      · rintro rfl; exact ⟨c, rfl, hp⟩
      · rintro ⟨d, h, _⟩; simp at h; exact h.2
    · rename_i hp
      rw [Matches.cls_iff]
      constructor
      · intro h; cases h
      · rintro ⟨d, h, hd⟩; simp at h; rw [h.1] at hp; exact absurd hd hp
  | seq a b iha ihb =>
    have key : Matches (.seq a b) (c :: s) ↔ Matches (.seq (der c a) b) s ∨
        (a.nullable = true ∧ Matches (der c b) s) := by
      rw [Matches.seq_iff, Matches.seq_iff]
      constructor
      · rintro ⟨u, v, h, h1, h2⟩
        cases u with
        | nil =>
          simp at h; subst h
          exact Or.inr ⟨(Matches.nullable_iff a).mpr h1, (ihb s).mpr h2⟩
        | cons d u =>
          simp at h; obtain ⟨rfl, rfl⟩ := h
          exact Or.inl ⟨u, v, rfl, (iha u).mpr h1, h2⟩
      · rintro (⟨u, v, rfl, h1, h2⟩ | ⟨h1, h2⟩)
        · exact ⟨c :: u, v, rfl, (iha u).mp h1, h2⟩
        · exact ⟨[], c :: s, rfl, (Matches.nullable_iff a).mp h1, (ihb s).mp h2⟩
    rw [key]
    simp only [der]
    split
    · rename_i hn
      rw [Matches.mkAlt_iff, Matches.alt_iff, Matches.mkSeq_iff]
      simp [hn]
    · rename_i hn
      rw [Matches.mkSeq_iff]
      simp [hn]
  | alt a b iha ihb =>
    simp only [der]
    rw [Matches.mkAlt_iff, Matches.alt_iff, Matches.alt_iff, iha, ihb]
  | star a ih =>
    simp only [der]
    rw [Matches.mkSeq_iff, Matches.seq_iff]
    constructor
    · rintro ⟨u, v, rfl, h1, h2⟩
      exact Matches.starCons ((ih u).mp h1) h2
    · intro h
      obtain ⟨u, v, rfl, h1, h2⟩ := Matches.star_cons h
      exact ⟨u, v, rfl, (ih u).mpr h1, h2⟩

/-- `k` is the length of the longest prefix of `s` in the language. -/
def IsLongest (r : RE) (s : Str) (k : Nat) : Prop :=
  k ≤ s.length ∧ Matches r (s.take k) ∧ ∀ j ≤ s.length, Matches r (s.take j) → j ≤ k

theorem longestGo_spec (r : RE) (s : Str) (n : Nat) (best : Option Nat) :
    (∃ k, longestGo r s n best = some (n + k) ∧ IsLongest r s k) ∨
    (longestGo r s n best = best ∧ ∀ j ≤ s.length, ¬ Matches r (s.take j)) := by
  induction s generalizing r n best with
  | nil =>
    unfold longestGo
    split
    · rename_i h
      exact Or.inl ⟨0, rfl, Nat.le_refl _, (Matches.nullable_iff r).mp h, fun j hj _ => hj⟩
    · rename_i h
      refine Or.inr ⟨rfl, ?_⟩
      intro j _ hm
      simp at hm
      exact h ((Matches.nullable_iff r).mpr hm)
  | cons c cs ih =>
    unfold longestGo
    split
    · rename_i h
      exact Or.inr ⟨rfl, fun j _ => Matches.isEmpty_false _ _ h⟩
    · rcases ih (der c r) (n + 1) (if r.nullable then some n else best) with
        ⟨k, h1, h2, h3, h4⟩ | ⟨h1, h2⟩
      · refine Or.inl ⟨k + 1, by rw [h1]; congr 1; omega, by simp; omega, ?_, ?_⟩
        · rw [List.take_succ_cons]; exact (Matches.der_iff c r _).mp h3
        · intro j hj hm
          cases j with
          | zero => omega
          | succ j =>
            rw [List.take_succ_cons, ← Matches.der_iff] at hm
            have := h4 j (by simpa using hj) hm
            omega
      · rw [h1]
        by_cases hn : r.nullable = true
        · refine Or.inl ⟨0, by simp [hn], by simp, (Matches.nullable_iff r).mp hn, ?_⟩
          intro j hj hm
          cases j with
          | zero => omega
          | succ j =>
            rw [List.take_succ_cons, ← Matches.der_iff] at hm
            exact absurd hm (h2 j (by simpa using hj))
        · refine Or.inr ⟨by simp [hn], ?_⟩
          intro j hj hm
          cases j with
          | zero => simp at hm; exact hn ((Matches.nullable_iff r).mpr hm)
          | succ j =>
            rw [List.take_succ_cons, ← Matches.der_iff] at hm
            exact absurd hm (h2 j (by simpa using hj))

theorem longest_some (r : RE) (s : Str) (k : Nat) :
    r.longest s = some k ↔ IsLongest r s k := by
  unfold RE.longest
  rcases longestGo_spec r s 0 none with ⟨k', h1, h2⟩ | ⟨h1, h2⟩
  · rw [h1]
    simp only [Nat.zero_add, Option.some.injEq]
    constructor
    · rintro rfl; exact h2
    · intro h
      have a := h.2.2 k' h2.1 h2.2.1
      have b := h2.2.2 k h.1 h.2.1
      omega
  · rw [h1]
    constructor
    · intro h; simp at h
    · intro h; exact absurd h.2.1 (h2 k h.1)

theorem longest_none (r : RE) (s : Str) :
    r.longest s = none ↔ ∀ j ≤ s.length, ¬ Matches r (s.take j) := by
  unfold RE.longest
  rcases longestGo_spec r s 0 none with ⟨k', h1, h2⟩ | ⟨h1, h2⟩
  · rw [h1]
    simp only [reduceCtorEq, false_iff]
    intro h
    exact h k' h2.1 h2.2.1
  · rw [h1]
    simpa using h2

/-- The rule at index `i` matches a prefix of length `n`. -/
def RuleMatches {α : Type} (rules : List (RE × α)) (s : Str) (i n : Nat) : Prop :=
  0 < n ∧ n ≤ s.length ∧ ∃ r a, rules[i]? = some (r, a) ∧ Matches r (s.take n)

/-- The rule at index `i` with action `a` and length `n` is the one flex chooses. -/
def Chosen {α : Type} (rules : List (RE × α)) (s : Str) (i n : Nat) (a : α) : Prop :=
  (∃ r, rules[i]? = some (r, a)) ∧ RuleMatches rules s i n ∧
    (∀ j m, RuleMatches rules s j m → m ≤ n) ∧ (∀ j, RuleMatches rules s j n → i ≤ j)

theorem ruleMatches_cons_zero {α : Type} (r : RE) (a : α) (rules : List (RE × α)) (s : Str)
    (n : Nat) : RuleMatches ((r, a) :: rules) s 0 n ↔ 0 < n ∧ n ≤ s.length ∧ Matches r (s.take n) := by
  unfold RuleMatches
  simp only [List.getElem?_cons_zero, Option.some.injEq, Prod.mk.injEq]
  constructor
  · rintro ⟨h1, h2, _, _, ⟨rfl, _⟩, h⟩; exact ⟨h1, h2, h⟩
  · rintro ⟨h1, h2, h⟩; exact ⟨h1, h2, r, a, ⟨rfl, rfl⟩, h⟩

theorem ruleMatches_cons_succ {α : Type} (x : RE × α) (rules : List (RE × α)) (s : Str)
    (i n : Nat) : RuleMatches (x :: rules) s (i + 1) n ↔ RuleMatches rules s i n := by
  unfold RuleMatches
  simp

/-- The choice is the longest match of the earliest rule; there is none only if no rule matches a
non-empty prefix. -/
theorem pick_spec {α : Type} (rules : List (RE × α)) (s : Str) :
    match pick rules s with
    | none => ∀ i n, ¬ RuleMatches rules s i n
    | some (n, a) => ∃ i, Chosen rules s i n a := by
  induction rules with
  | nil => simp [pick, RuleMatches]
  | cons x rules ih =>
    obtain ⟨r, a⟩ := x
    -- what the head contributes
    have head_le : ∀ k, r.longest s = some k → ∀ m, RuleMatches ((r, a) :: rules) s 0 m → m ≤ k := by
      intro k hk m hm
      rw [ruleMatches_cons_zero] at hm
      exact ((longest_some r s k).mp hk).2.2 m hm.2.1 hm.2.2
    have head_at : ∀ k, r.longest s = some k → 0 < k → RuleMatches ((r, a) :: rules) s 0 k := by
      intro k hk h0
      rw [ruleMatches_cons_zero]
      have := (longest_some r s k).mp hk
      exact ⟨h0, this.1, this.2.1⟩
    have lift : ∀ i n b, Chosen rules s i n b →
        (∀ m, RuleMatches ((r, a) :: rules) s 0 m → m < n) →
        Chosen ((r, a) :: rules) s (i + 1) n b := by
      rintro i n b ⟨⟨r', hr'⟩, h1, h2, h3⟩ h
      refine ⟨⟨r', by simpa using hr'⟩, (ruleMatches_cons_succ _ _ _ _ _).mpr h1, ?_, ?_⟩
      · intro j m hm
        cases j with
        | zero => exact Nat.le_of_lt (h m hm)
        | succ j => exact h2 j m ((ruleMatches_cons_succ _ _ _ _ _).mp hm)
      · intro j hm
        cases j with
        | zero => exact absurd (h n hm) (by omega)
        | succ j => exact Nat.succ_le_succ (h3 j ((ruleMatches_cons_succ _ _ _ _ _).mp hm))
    unfold pick
    cases hl : r.longest s with
    | none =>
      have hno : ∀ m, ¬ RuleMatches ((r, a) :: rules) s 0 m := by
        intro m hm
        rw [ruleMatches_cons_zero] at hm
        exact (longest_none r s).mp hl m hm.2.1 hm.2.2
      dsimp only
      cases hp : pick rules s with
      | none =>
        rw [hp] at ih
        intro i n hm
        cases i with
        | zero => exact hno n hm
        | succ i => exact ih i n ((ruleMatches_cons_succ _ _ _ _ _).mp hm)
      | some p =>
        obtain ⟨m, b⟩ := p
        rw [hp] at ih
        obtain ⟨i, hi⟩ := ih
        exact ⟨i + 1, lift i m b hi (fun m hm => absurd hm (hno m))⟩
    | some k =>
      cases hp : pick rules s with
      | none =>
        rw [hp] at ih
        dsimp only
        by_cases h0 : 0 < k
        · rw [if_pos h0]
          refine ⟨0, ⟨r, rfl⟩, head_at k hl h0, ?_, by omega⟩
          intro j m hm
          cases j with
          | zero => exact head_le k hl m hm
          | succ j => exact absurd ((ruleMatches_cons_succ _ _ _ _ _).mp hm) (ih j m)
        · rw [if_neg h0]
          intro i n hm
          cases i with
          | zero =>
            have := head_le k hl n hm
            have := hm.1
            omega
          | succ i => exact ih i n ((ruleMatches_cons_succ _ _ _ _ _).mp hm)
      | some p =>
        obtain ⟨m, b⟩ := p
        rw [hp] at ih
        dsimp only
        obtain ⟨i, hi⟩ := ih
        by_cases hc : 0 < k ∧ m ≤ k
        · rw [if_pos hc]
          refine ⟨0, ⟨r, rfl⟩, head_at k hl hc.1, ?_, by omega⟩
          intro j n hm
          cases j with
          | zero => exact head_le k hl n hm
          | succ j =>
            have := hi.2.2.1 j n ((ruleMatches_cons_succ _ _ _ _ _).mp hm)
            omega
        · rw [if_neg hc]
          refine ⟨i + 1, lift i m b hi ?_⟩
          intro n hn
          have h1 := head_le k hl n hn
          have h2 := hn.1
          have h3 := hi.2.1.1
          omega

/-- The choice is unique. -/
theorem chosen_unique {α : Type} (rules : List (RE × α)) (s : Str) (i j n m : Nat) (a b : α)
    (h1 : Chosen rules s i n a) (h2 : Chosen rules s j m b) : i = j ∧ n = m ∧ a = b := by
  have hnm : n = m := by
    have := h1.2.2.1 j m h2.2.1
    have := h2.2.2.1 i n h1.2.1
    omega
  subst hnm
  have hij : i = j := by
    have := h1.2.2.2 j h2.2.1
    have := h2.2.2.2 i h1.2.1
    omega
  subst hij
  obtain ⟨_, e1⟩ := h1.1
  obtain ⟨_, e2⟩ := h2.1
  rw [e1] at e2
  simp at e2
  exact ⟨rfl, rfl, e2.2⟩

theorem pick_eq {α : Type} (rules : List (RE × α)) (s : Str) (i n : Nat) (a : α)
    (h : Chosen rules s i n a) : pick rules s = some (n, a) := by
  have := pick_spec rules s
  cases hp : pick rules s with
  | none => rw [hp] at this; exact absurd h.2.1 (this i n)
  | some p =>
    obtain ⟨m, b⟩ := p
    rw [hp] at this
    obtain ⟨j, hj⟩ := this
    obtain ⟨_, rfl, rfl⟩ := chosen_unique rules s i j n m a b h hj
    rfl

end FLPR.Flex
