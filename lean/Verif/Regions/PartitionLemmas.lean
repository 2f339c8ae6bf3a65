import Verif.Regions.PartitionSpec
import Verif.FileLine.Lemmas
/-!
# Lemmas about `Range_Partition`: the links are those of the sorted list of active regions
-/

namespace FLPR
namespace Reg
open Spec

variable {T : Type}

/-- `s` is the first active index behind `i`, or `n`. -/
def IsNext (act : Nat → Prop) (n i s : Nat) : Prop :=
  i < s ∧ s ≤ n ∧ (s < n → act s) ∧ ∀ k, i < k → k < s → ¬ act k

/-- `s` is the first active index, or `n`. -/
def IsFirst (act : Nat → Prop) (n s : Nat) : Prop :=
  s ≤ n ∧ (s < n → act s) ∧ ∀ k, k < s → ¬ act k

/-- `p` is the last active index in front of `i`, or `n`. -/
def IsPrev (act : Nat → Prop) (n i p : Nat) : Prop :=
  (p = n ∧ ∀ k, k < i → ¬ act k) ∨ (p < i ∧ p < n ∧ act p ∧ ∀ k, p < k → k < i → ¬ act k)

/-- The elements from region `i` on. -/
def rest (c : Nat → List Nat) (post : List Nat) (n i : Nat) : List Nat :=
  (List.range' i (n - i)).flatMap c ++ post

theorem rest_end (c post n) : rest c post n n = post := by simp [rest]

theorem rest_step {c : Nat → List Nat} {post : List Nat} {n i : Nat} (h : i < n) :
    rest c post n i = c i ++ rest c post n (i + 1) := by
  rw [rest, rest, show n - i = (n - (i + 1)) + 1 by omega, List.range'_succ, List.flatMap_cons,
    List.append_assoc]

theorem rest_skip {c : Nat → List Nat} {post : List Nat} {n i s : Nat} (h : i ≤ s) (hs : s ≤ n)
    (he : ∀ k, i ≤ k → k < s → c k = []) : rest c post n i = rest c post n s := by
  induction s with
  | zero => rw [show i = 0 by omega]
  | succ s ih =>
    by_cases his : i = s + 1
    · rw [his]
    · rw [ih (by omega) (by omega) (fun k h1 h2 => he k h1 (by omega)), rest_step (by omega),
        he s (by omega) (by omega), List.nil_append]

theorem rest_next {act : Nat → Prop} {c : Nat → List Nat} {post : List Nat} {n i s : Nat}
    (h : IsNext act n i s) (hc : ∀ k, k < n → ¬ act k → c k = []) :
    rest c post n i = c i ++ rest c post n s := by
  obtain ⟨h1, h2, h3, h4⟩ := h
  rw [rest_step (by omega), rest_skip (s := s) (by omega) h2]
  intro k hk1 hk2
  exact hc k (by omega) (h4 k (by omega) hk2)

/-- The links of the entry with index `i`. -/
structure Entry (act : Nat → Prop) (n i : Nat) (p : Part T) : Prop where
  on : i < n → act i → IsNext act n i p.succ ∧ IsPrev act n i p.pred
  off : i < n → ¬ act i → p.succ = i ∧ p.pred = i
  last : i = n → IsFirst act n p.succ ∧ IsPrev act n n p.pred

/-- The links are right. -/
structure Links (r : RP T) (n : Nat) (act : Nat → Prop) : Prop where
  idx : r.endIdx = n
  len : r.parts.length = n + 1
  small : n < badIdx
  lt : ∀ a, act a → a < n
  ent : ∀ i, i ≤ n → ∃ p, r.parts[i]? = some p ∧ Entry act n i p

/-- The iterators are right. -/
structure Begins (r : RP T) (n : Nat) (act : Nat → Prop) (c : Nat → List Nat) (post : List Nat) : Prop where
  on : ∀ i p, r.parts[i]? = some p → act i → p.begin = (rest c post n i).head?
  off : ∀ i, i < n → ¬ act i → c i = []
  last : ∀ p, r.parts[n]? = some p → (∃ a, act a) → p.begin = post.head?

theorem part_ok {r : RP T} {i : Nat} {p : Part T} (h : r.parts[i]? = some p) : r.part i = .ok p := by
  rw [RP.part, h]

theorem Links.okay {r : RP T} {n act} (h : Links r n act) {i : Nat} (hi : i ≤ n) {p : Part T}
    (hp : r.parts[i]? = some p) : p.okay = true := by
  obtain ⟨q, h1, h2⟩ := h.ent i hi
  rw [hp] at h1
  injection h1 with h1
  subst h1
  have hn := h.small
  have : p.succ ≤ n ∧ p.pred ≤ n := by
    rcases Nat.lt_or_eq_of_le hi with hi' | hi'
    · by_cases ha : act i
      · obtain ⟨a, b⟩ := h2.on hi' ha
        refine ⟨a.2.1, ?_⟩
        rcases b with b | b <;> omega
      · obtain ⟨a, b⟩ := h2.off hi' ha
        omega
    · obtain ⟨a, b⟩ := h2.last hi'
      refine ⟨a.1, ?_⟩
      rcases b with b | b <;> omega
  simp only [Part.okay, Bool.and_eq_true, bne_iff_ne, ne_eq]
  omega

theorem Links.validIdx {r : RP T} {n act} (h : Links r n act) (i : Nat) :
    r.validIdx i = .ok (decide (i < n)) := by
  rw [RP.validIdx, h.idx]
  by_cases hi : i < n
  · rw [if_pos hi]
    obtain ⟨p, hp, _⟩ := h.ent i (by omega)
    rw [part_ok hp, Res.ok_bind, h.okay (by omega) hp, decide_eq_true hi]
  · rw [if_neg hi, decide_eq_false hi]

theorem Links.checkValid {r : RP T} {n act} (h : Links r n act) {i : Nat} (hi : i < n) :
    r.checkValid i = .ok () := by
  rw [RP.checkValid, h.validIdx, Res.ok_bind, decide_eq_true hi]; rfl

theorem Links.back {r : RP T} {n act} (h : Links r n act) :
    ∃ p, r.parts[n]? = some p ∧ r.back = .ok p ∧ Entry act n n p := by
  obtain ⟨p, hp, he⟩ := h.ent n (le_refl _)
  refine ⟨p, hp, ?_, he⟩
  rw [RP.back, List.getLast?_eq_getElem?, h.len, Nat.add_sub_cancel, hp]

theorem isPrev_unique {act : Nat → Prop} {n i p q : Nat} (h1 : IsPrev act n i p)
    (h2 : IsPrev act n i q) : p = q := by
  rcases h1 with ⟨a, b⟩ | ⟨a, b, d, e⟩ <;> rcases h2 with ⟨a', b'⟩ | ⟨a', b', d', e'⟩
  · omega
  · exact absurd d' (b q a')
  · exact absurd d (b' p a)
  · rcases Nat.lt_trichotomy p q with hh | hh | hh
    · exact absurd d' (e q hh a')
    · exact hh
    · exact absurd d (e' p hh a)

theorem isPrev_back {act : Nat → Prop} {n i s p : Nat} (hni : ¬ act i) (hs : IsNext act n i s)
    (h : IsPrev act n s p) : IsPrev act n i p := by
  obtain ⟨h1, h2, h3, h4⟩ := hs
  rcases h with ⟨a, b⟩ | ⟨a, b, d, e⟩
  · exact .inl ⟨a, fun k hk => b k (by omega)⟩
  · have : p < i := by
      by_contra hc
      rcases Nat.lt_or_eq_of_le (Nat.le_of_not_lt hc) with hh | hh
      · exact h4 p hh a d
      · subst hh; exact hni d
    exact .inr ⟨this, b, d, fun k hk1 hk2 => e k hk1 (by omega)⟩

/-- The loop finds the next active index, if the test `active()` is right behind `i`. -/
theorem nextLoop_ok {r : RP T} {n act} (h : Links r n act)
    : ∀ m i, i < n → n ≤ i + m → (∀ k p, i < k → k < n → r.parts[k]? = some p → act k → p.active = true) →
    ∃ s, r.nextLoop m i = .ok s ∧ IsNext act n i s := by
  intro m
  induction m with
  | zero => intro i hi hm; omega
  | succ m ih =>
    intro i hi hm ha
    rw [RP.nextLoop, h.validIdx, Res.ok_bind]
    by_cases hn : i + 1 < n
    · rw [decide_eq_true hn, if_pos rfl]
      obtain ⟨p, hp, he⟩ := h.ent (i + 1) (by omega)
      rw [part_ok hp, Res.ok_bind]
      by_cases hact : act (i + 1)
      · rw [if_pos (ha _ _ (by omega) hn hp hact)]
        exact ⟨_, rfl, by omega, by omega, fun _ => hact, fun k h1 h2 => by omega⟩
      · have : p.active = false := by
          obtain ⟨a, b⟩ := he.off hn hact
          simp [Part.active, a, b]
        rw [this, if_neg (by simp)]
        obtain ⟨s, hs, h1, h2, h3, h4⟩ := ih (i + 1) hn (by omega) (fun k p hk => ha k p (by omega))
        refine ⟨s, hs, by omega, h2, h3, fun k hk1 hk2 => ?_⟩
        by_cases hk : k = i + 1
        · subst hk; exact hact
        · exact h4 k (by omega) hk2
    · rw [decide_eq_false hn, if_neg (by simp)]
      exact ⟨_, rfl, by omega, by omega, fun hh => absurd hh hn, fun k h1 h2 => by omega⟩

theorem modify_ok {r : RP T} {i : Nat} {p : Part T} (f : Part T → Part T) (h : r.parts[i]? = some p) :
    r.modify i f = .ok { r with parts := r.parts.set i (f p) } := by
  rw [RP.modify, part_ok h]; rfl

/-- `activate_` on an inactive index, if the test `active()` is right behind it: what is written. -/
theorem activate_run {r : RP T} {n act} (h : Links r n act) {i : Nat} (hi : i < n)
    (hni : ¬ act i) (ha : ∀ k p, i < k → k < n → r.parts[k]? = some p → act k → p.active = true) :
    ∃ r' s p ps, r.activate i = .ok r' ∧ r'.endIdx = n ∧ r'.parts.length = n + 1 ∧
      IsNext act n i s ∧ IsPrev act n i p ∧ r.parts[s]? = some ps ∧
      ∀ k q, r.parts[k]? = some q → r'.parts[k]? = some (if k = i then ⟨ps.begin, p, s, q.trk⟩
        else { q with succ := if k = p then i else q.succ, pred := if k = s then i else q.pred }) := by
  obtain ⟨pi, hpi, hei⟩ := h.ent i (by omega)
  obtain ⟨e1, e2⟩ := hei.off hi hni
  have hina : pi.active = false := by simp [Part.active, e1, e2]
  obtain ⟨s, hs, hn⟩ := nextLoop_ok h (r.endIdx + 1) i hi (by rw [h.idx]; omega) ha
  obtain ⟨ps, hps, hes⟩ := h.ent s hn.2.1
  have hprev : IsPrev act n s ps.pred := by
    rcases Nat.lt_or_eq_of_le hn.2.1 with hh | hh
    · exact (hes.on hh (hn.2.2.1 hh)).2
    · rw [hh]; exact (hes.last hh).2
  have hprev' := isPrev_back hni hn hprev
  have hpn : ps.pred ≤ n := by rcases hprev with a | a <;> omega
  have hpi' : ps.pred ≠ i := by
    rcases hprev' with a | a <;> omega
  have hsi : s ≠ i := by have := hn.1; omega
  obtain ⟨pp, hpp, _⟩ := h.ent ps.pred hpn
  have hlp : ps.pred < r.parts.length := by rw [h.len]; omega
  have hls : s < r.parts.length := by rw [h.len]; have := hn.2.1; omega
  have hli : i < r.parts.length := by rw [h.len]; omega
  rw [RP.activate, part_ok hpi, Res.ok_bind, hina, if_neg (by simp), RP.nextActive, part_ok hpi,
    Res.ok_bind, hina, if_neg (by simp), hs, Res.ok_bind, part_ok hps, Res.ok_bind]
  simp only [modify_ok _ hpp, Res.ok_bind]
  have q1 : ∃ q1, (r.parts.set ps.pred { pp with succ := i })[s]? = some q1 ∧ q1.begin = ps.begin := by
    by_cases he : ps.pred = s
    · rw [he] at hpp ⊢
      rw [hps] at hpp; injection hpp with hpp; subst hpp
      exact ⟨_, List.getElem?_set_self hls, rfl⟩
    · rw [List.getElem?_set_ne he]; exact ⟨ps, hps, rfl⟩
  obtain ⟨q1, hq1, hb1⟩ := q1
  rw [modify_ok _ (r := { r with parts := _ }) hq1, Res.ok_bind]
  have hl2 : s < (r.parts.set ps.pred { pp with succ := i }).length := by simpa using hls
  rw [part_ok (p := { q1 with pred := i }) (List.getElem?_set_self hl2), Res.ok_bind]
  have hi2 : ((r.parts.set ps.pred { pp with succ := i }).set s { q1 with pred := i })[i]? = some pi := by
    rw [List.getElem?_set_ne hsi, List.getElem?_set_ne hpi', hpi]
  rw [modify_ok _ (r := { r with parts := _ }) hi2]
  refine ⟨_, s, ps.pred, ps, rfl, h.idx, by simp [h.len], hn, hprev', hps, ?_⟩
  intro k q hq
  by_cases hki : k = i
  · subst hki
    rw [hpi] at hq; injection hq with hq; subst hq
    rw [if_pos rfl]
    simp only
    rw [List.getElem?_set_self (by simpa using hli), hb1]
  · rw [if_neg hki]
    simp only
    rw [List.getElem?_set_ne (by omega)]
    by_cases hks : k = s
    · subst hks
      rw [List.getElem?_set_self hl2, if_pos rfl]
      by_cases hkp : k = ps.pred
      · rw [if_pos hkp]
        rw [← hkp, List.getElem?_set_self hls] at hq1
        injection hq1 with hq1
        subst hq1
        rw [← hkp, hq] at hpp; injection hpp with hpp; subst hpp; rfl
      · rw [if_neg hkp]
        rw [List.getElem?_set_ne (by omega), hq] at hq1
        injection hq1 with hq1
        subst hq1; rfl
    · rw [List.getElem?_set_ne (by omega), if_neg hks]
      by_cases hkp : k = ps.pred
      · subst hkp
        rw [if_pos rfl, List.getElem?_set_self hlp]
        rw [hpp] at hq; injection hq with hq; subst hq; rfl
      · rw [if_neg hkp, List.getElem?_set_ne (by omega), hq]

/-- The links after `activate_`. -/
theorem activate_links {r r' : RP T} {n act} (h : Links r n act) {i s p : Nat} {ps : Part T} (hi : i < n)
    (hni : ¬ act i) (e1 : r'.endIdx = n) (e2 : r'.parts.length = n + 1) (hn : IsNext act n i s)
    (hp : IsPrev act n i p)
    (hw : ∀ k q, r.parts[k]? = some q → r'.parts[k]? = some (if k = i then ⟨ps.begin, p, s, q.trk⟩
        else { q with succ := if k = p then i else q.succ, pred := if k = s then i else q.pred })) :
    Links r' n (fun k => act k ∨ k = i) := by
  obtain ⟨s1, s2, s3, s4⟩ := hn
  refine ⟨e1, e2, h.small, ?_, ?_⟩
  · rintro a (ha | rfl)
    · exact h.lt a ha
    · exact hi
  · intro k hk
    obtain ⟨q, hq, he⟩ := h.ent k hk
    refine ⟨_, hw k q hq, ?_⟩
    by_cases hki : k = i
    · subst hki
      rw [if_pos rfl]
      refine ⟨fun _ _ => ⟨⟨s1, s2, fun hh => .inl (s3 hh), ?_⟩, ?_⟩, fun _ hh => absurd (.inr rfl) hh,
        fun hh => by omega⟩
      · rintro j h1 h2 (h3 | h3)
        · exact s4 j h1 h2 h3
        · omega
      · rcases hp with ⟨a, b⟩ | ⟨a, b, d, e⟩
        · refine .inl ⟨a, ?_⟩
          rintro j h1 (h3 | h3)
          · exact b j h1 h3
          · omega
        · refine .inr ⟨a, b, .inl d, ?_⟩
          rintro j h1 h2 (h3 | h3)
          · exact e j h1 h2 h3
          · omega
    · rw [if_neg hki]
      -- predecessor of an active or the last entry
      have prevAt : ∀ u, IsPrev act n k u → (k < n → act k) →
          IsPrev (fun k => act k ∨ k = i) n k (if k = s then i else u) := by
        intro u hu hak
        by_cases hks : k = s
        · rw [if_pos hks]
          refine .inr ⟨by omega, hi, .inr rfl, ?_⟩
          rintro j h1 h2 (h3 | h3)
          · exact s4 j h1 (by omega) h3
          · omega
        · rw [if_neg hks]
          have hik : i < k → s < k := by
            intro hh
            by_contra hc
            have hks' : k < s := by omega
            exact s4 k hh hks' (hak (by omega))
          rcases hu with ⟨a, b⟩ | ⟨a, b, d, e⟩
          · refine .inl ⟨a, ?_⟩
            rintro j h1 (h3 | h3)
            · exact b j h1 h3
            · subst h3
              have := hik h1
              exact b s this (s3 (by omega))
          · refine .inr ⟨a, b, .inl d, ?_⟩
            rintro j h1 h2 (h3 | h3)
            · exact e j h1 h2 h3
            · subst h3
              have h5 := hik h2
              exact e s (by omega) h5 (s3 (by omega))
      refine ⟨fun hkn hak => ?_, fun hkn hak => ?_, fun hkn => ?_⟩
      · have hak' : act k := by rcases hak with a | a; exacts [a, absurd a hki]
        obtain ⟨o1, o2⟩ := he.on hkn hak'
        refine ⟨?_, prevAt _ o2 (fun _ => hak')⟩
        simp only
        obtain ⟨t1, t2, t3, t4⟩ := o1
        by_cases hkp : k = p
        · rw [if_pos hkp]
          subst hkp
          rcases hp with ⟨a, b⟩ | ⟨a, b, d, e⟩
          · omega
          · refine ⟨a, by omega, fun _ => .inr rfl, ?_⟩
            rintro j h1 h2 (h3 | h3)
            · exact e j h1 h2 h3
            · omega
        · rw [if_neg hkp]
          refine ⟨t1, t2, fun hh => .inl (t3 hh), ?_⟩
          rintro j h1 h2 (h3 | h3)
          · exact t4 j h1 h2 h3
          · subst h3
            apply hkp
            exact isPrev_unique (.inr ⟨h1, hkn, hak', fun l hl1 hl2 => t4 l hl1 (by omega)⟩) hp
      · have hak' : ¬ act k := fun a => hak (.inl a)
        obtain ⟨o1, o2⟩ := he.off hkn hak'
        simp only
        rw [if_neg, if_neg]
        · exact ⟨o1, o2⟩
        · rintro rfl; exact hak' (s3 hkn)
        · rintro rfl
          rcases hp with ⟨a, b⟩ | ⟨a, b, d, e⟩
          · omega
          · exact hak' d
      · subst hkn
        obtain ⟨o1, o2⟩ := he.last rfl
        refine ⟨?_, prevAt _ o2 (fun hh => by omega)⟩
        simp only
        obtain ⟨t1, t2, t3⟩ := o1
        by_cases hkp : k = p
        · rw [if_pos hkp]
          refine ⟨by omega, fun _ => .inr rfl, ?_⟩
          rintro j h1 (h3 | h3)
          · rcases hp with ⟨a, b⟩ | ⟨a, b, d, e⟩
            · exact b j h1 h3
            · omega
          · omega
        · rw [if_neg hkp]
          refine ⟨t1, fun hh => .inl (t2 hh), ?_⟩
          rintro j h1 (h3 | h3)
          · exact t3 j h1 h3
          · subst h3
            rcases hp with ⟨a, b⟩ | ⟨a, b, d, e⟩
            · omega
            · exact t3 p (by omega) d

/-- With two active entries the test `active()` is right. -/
theorem active_of_two {r : RP T} {n act} (h : Links r n act) {k : Nat} {p : Part T} (hk : r.parts[k]? = some p)
    (ha : act k) (h2 : ∃ j, act j ∧ j ≠ k) : p.active = true := by
  obtain ⟨q, hq, he⟩ := h.ent k (le_of_lt (h.lt k ha))
  rw [hk] at hq; injection hq with hq; subst hq
  obtain ⟨⟨a, b, d, e⟩, hp⟩ := he.on (h.lt k ha) ha
  obtain ⟨j, hj, hjk⟩ := h2
  have := h.lt j hj
  simp only [Part.active, bne_iff_ne, ne_eq]
  intro hc
  rcases hp with ⟨a', b'⟩ | ⟨a', _⟩
  · rcases Nat.lt_or_gt_of_ne hjk with hh | hh
    · exact b' j hh hj
    · exact e j hh (by omega) hj
  · omega

theorem modify_begin {r : RP T} {n act} (h : Links r n act) {i : Nat} (hi : i ≤ n) (b : It) :
    ∃ r', r.modify i (fun q => { q with begin := b }) = .ok r' ∧ Links r' n act ∧
      ∀ k q, r.parts[k]? = some q → r'.parts[k]? = some (if k = i then { q with begin := b } else q) := by
  obtain ⟨p, hp, _⟩ := h.ent i hi
  have key : ∀ k q, r.parts[k]? = some q →
      (r.parts.set i { p with begin := b })[k]? = some (if k = i then { q with begin := b } else q) := by
    intro k q hq
    by_cases hk : k = i
    · subst hk
      rw [hp] at hq; injection hq with hq; subst hq
      rw [if_pos rfl, List.getElem?_set_self (by rw [h.len]; omega)]
    · rw [if_neg hk, List.getElem?_set_ne (by omega), hq]
  refine ⟨_, modify_ok _ hp, ⟨h.idx, by simp [h.len], h.small, h.lt, ?_⟩, key⟩
  intro k hk
  obtain ⟨q, hq, he⟩ := h.ent k hk
  refine ⟨_, key k q hq, ?_⟩
  split
  · exact ⟨he.on, he.off, he.last⟩
  · exact he

theorem Links.getPart {r : RP T} {n act} (h : Links r n act) {r' : RP T} {g : Nat → Part T → Part T}
    (hw : ∀ k q, r.parts[k]? = some q → r'.parts[k]? = some (g k q)) {k : Nat} (hk : k ≤ n) {p' : Part T}
    (hp : r'.parts[k]? = some p') : ∃ q, r.parts[k]? = some q ∧ p' = g k q := by
  obtain ⟨q, hq, _⟩ := h.ent k hk
  have := hw k q hq
  rw [hp] at this
  injection this with this
  exact ⟨q, hq, this⟩

/-- The contents after elements are added to region `i`. -/
def addTo (c : Nat → List Nat) (i : Nat) (xs : List Nat) (k : Nat) : List Nat :=
  if k = i then c i ++ xs else c k

theorem rest_addTo {c : Nat → List Nat} {post xs : List Nat} {n i : Nat} (hi : i < n)
    (hc : ∀ j, i < j → j < n → c j = []) (k : Nat) (hk : k ≤ i) :
    rest (addTo c i xs) post n k = rest c (xs ++ post) n k := by
  obtain ⟨d, rfl⟩ : ∃ d, i = k + d := ⟨i - k, by omega⟩
  induction d generalizing k with
  | zero =>
    have hk' : k < n := by simpa using hi
    rw [Nat.add_zero] at hc ⊢
    have e1 := rest_skip (c := addTo c k xs) (post := post) (i := k + 1) (s := n) hk' (le_refl _)
      (fun j h1 h2 => by rw [addTo, if_neg (by omega)]; exact hc j (by omega) h2)
    have e2 := rest_skip (c := c) (post := xs ++ post) (i := k + 1) (s := n) hk' (le_refl _)
      (fun j h1 h2 => hc j (by omega) h2)
    rw [rest_step (c := addTo c k xs) hk', rest_step (c := c) hk', e1, e2, rest_end, rest_end, addTo,
      if_pos rfl, List.append_assoc]
  | succ d ih =>
    have hk' : k < n := by omega
    rw [rest_step (c := addTo c _ xs) hk', rest_step (c := c) hk', addTo, if_neg (by omega)]
    have := ih (k + 1) (by omega) (fun j h1 h2 => hc j (by omega) h2) (by omega)
    rw [show k + 1 + d = k + (d + 1) by omega] at this
    rw [this]

theorem head_ne {xs post : List Nat} (hx : xs ≠ []) (hp : post ≠ []) (hd : (xs ++ post).Nodup) :
    (xs ++ post).head? ≠ post.head? := by
  cases xs with
  | nil => exact absurd rfl hx
  | cons x xs =>
    cases post with
    | nil => exact absurd rfl hp
    | cons y post =>
      simp only [List.cons_append, List.head?_cons, ne_eq, Option.some.injEq]
      rintro rfl
      simp at hd

/-- `append` of the next elements to region `i`, no later region being active. -/
theorem append_ok {r : RP T} {n act c} {xs post : List Nat} (h : Links r n act)
    (hb : Begins r n act c (xs ++ post)) {i : Nat} (hi : i < n) (hx : xs ≠ []) (hp : post ≠ [])
    (hd : (xs ++ post).Nodup) (ho : ∀ a, act a → a ≤ i) :
    ∃ r', r.append i (xs ++ post).head? post.head? = .ok r' ∧
      Links r' n (fun k => act k ∨ k = i) ∧ Begins r' n (fun k => act k ∨ k = i) (addTo c i xs) post := by
  have hcl : ∀ j, i < j → j < n → c j = [] := fun j h1 h2 =>
    hb.off j h2 (fun ha => by have := ho j ha; omega)
  obtain ⟨pe, hpe, hback, hee⟩ := h.back
  obtain ⟨-, hprev⟩ := hee.last rfl
  have hen : r.endAll = .ok pe.begin := by
    rw [RP.endAll, h.idx, part_ok hpe]; rfl
  have hguard : (pe.pred == r.endIdx || (xs ++ post).head? == pe.begin) = true := by
    rcases hprev with ⟨a, b⟩ | ⟨a, b, d, e⟩
    · simp [a, h.idx]
    · rw [hb.last pe hpe ⟨_, d⟩]; simp
  have hback2 : ∀ {r1 : RP T} {act1}, Links r1 n act1 → r1.parts.length - 1 = n := by
    intro r1 act1 h1; rw [h1.len]; rfl
  rw [RP.append, h.checkValid hi, Res.ok_bind, if_neg (head_ne hx hp hd), RP.activeEmpty, hback,
    Res.ok_bind, Res.ok_bind, hen, Res.ok_bind, if_pos hguard, RP.lastActive, hback, Res.ok_bind,
    Res.ok_bind]
  by_cases hai : act i
  · -- already active: it is the last
    have hpi : pe.pred = i := by
      refine isPrev_unique hprev (.inr ⟨hi, hi, hai, fun k h1 _ h3 => ?_⟩)
      have := ho k h3; omega
    have hcond : (pe.pred == r.endIdx || decide (pe.pred < i)) = false := by
      rw [hpi, h.idx]; simp; omega
    rw [if_neg (by rw [hcond]; simp), if_pos hpi, RP.setBack, hback2 h]
    obtain ⟨r', e1, e2, e3⟩ := modify_begin h (le_refl n) post.head?
    refine ⟨r', e1, ?_, ?_⟩
    · have : (fun k => act k ∨ k = i) = act := by
        funext k; apply propext
        constructor
        · rintro (a | rfl); exacts [a, hai]
        · exact .inl
      rw [this]; exact e2
    · refine ⟨?_, ?_, ?_⟩
      · intro k p' hk hak
        have hak : act k := by rcases hak with a | rfl; exacts [a, hai]
        have hkn := h.lt k hak
        obtain ⟨q, hq, rfl⟩ := h.getPart e3 (by omega) hk
        rw [if_neg (by omega), rest_addTo hi hcl k (ho k hak)]
        exact hb.on k q hq hak
      · intro k hk hnk
        rw [addTo, if_neg (fun e => hnk (.inr e))]
        exact hb.off k hk (fun a => hnk (.inl a))
      · intro p' hp' _
        obtain ⟨q, hq, rfl⟩ := h.getPart e3 (le_refl n) hp'
        rw [if_pos rfl]
  · -- newly activated
    have hcond : (pe.pred == r.endIdx || decide (pe.pred < i)) = true := by
      rw [h.idx]
      rcases hprev with ⟨a, b⟩ | ⟨a, b, d, e⟩
      · simp [a]
      · have := ho _ d
        have hne : pe.pred ≠ i := by rintro e; rw [e] at d; exact hai d
        simp; omega
    obtain ⟨r1, s, p, ps, a1, a2, a3, a4, a5, a6, a7⟩ := activate_run h hi hai
      (fun k q h1 h2 h3 h4 => by have := ho k h4; omega)
    have h1 := activate_links h hi hai a2 a3 a4 a5 a7
    obtain ⟨r2, b1, b2, b3⟩ := modify_begin h1 (le_of_lt hi) (xs ++ post).head?
    obtain ⟨r3, c1, c2, c3⟩ := modify_begin b2 (le_refl n) post.head?
    rw [if_pos hcond, a1, Res.ok_bind, b1, Res.ok_bind, RP.setBack, hback2 b2]
    refine ⟨r3, c1, c2, ?_, ?_, ?_⟩
    · intro k p' hk hak
      have hkn : k < n := c2.lt k hak
      obtain ⟨q2, hq2, rfl⟩ := b2.getPart c3 (by omega) hk
      obtain ⟨q1, hq1, rfl⟩ := h1.getPart b3 (by omega) hq2
      obtain ⟨q0, hq0, rfl⟩ := h.getPart a7 (by omega) hq1
      rw [if_neg (by omega)]
      by_cases hki : k = i
      · subst hki
        rw [if_pos rfl, rest_addTo hi hcl k (le_refl _), rest_step hi, hb.off k hi hai,
          rest_skip (s := n) (by omega) (le_refl _) (fun j h1 h2 => hcl j (by omega) h2), rest_end]
        rfl
      · have hak' : act k := by rcases hak with a | a; exacts [a, absurd a hki]
        rw [if_neg hki, if_neg hki, rest_addTo hi hcl k (ho k hak')]
        exact hb.on k q0 hq0 hak'
    · intro k hk hnk
      rw [addTo, if_neg (fun e => hnk (.inr e))]
      exact hb.off k hk (fun a => hnk (.inl a))
    · intro p' hp' _
      obtain ⟨q, hq, rfl⟩ := b2.getPart c3 (le_refl n) hp'
      rw [if_pos rfl]

/-- `activate_` when at least two regions are active. -/
theorem activate_two {r : RP T} {n act c} {post : List Nat} (h : Links r n act)
    (hb : Begins r n act c post) {i : Nat} (hi : i < n) (h2 : ∃ a b, act a ∧ act b ∧ a ≠ b) :
    ∃ r', r.activate i = .ok r' ∧ Links r' n (fun k => act k ∨ k = i) ∧
      Begins r' n (fun k => act k ∨ k = i) c post := by
  obtain ⟨a, b, ha, hbb, hab⟩ := h2
  have two : ∀ k, ∃ j, act j ∧ j ≠ k := by
    intro k
    by_cases hk : a = k
    · exact ⟨b, hbb, by omega⟩
    · exact ⟨a, ha, hk⟩
  by_cases hai : act i
  · obtain ⟨p, hp, _⟩ := h.ent i (by omega)
    have : (fun k => act k ∨ k = i) = act := by
      funext k; apply propext
      constructor
      · rintro (a | rfl); exacts [a, hai]
      · exact .inl
    rw [this]
    refine ⟨r, ?_, h, hb⟩
    rw [RP.activate, part_ok hp, Res.ok_bind, if_pos (active_of_two h hp hai (two i))]
  · obtain ⟨r1, s, p, ps, a1, a2, a3, a4, a5, a6, a7⟩ := activate_run h hi hai
      (fun k q h1 h2 h3 h4 => active_of_two h h3 h4 (two k))
    have h1 := activate_links h hi hai a2 a3 a4 a5 a7
    refine ⟨r1, a1, h1, ?_, ?_, ?_⟩
    · intro k p' hk hak
      have hkn : k < n := h1.lt k hak
      obtain ⟨q0, hq0, rfl⟩ := h.getPart a7 (by omega) hk
      by_cases hki : k = i
      · subst hki
        rw [if_pos rfl]
        rw [rest_next a4 hb.off, hb.off k hi hai, List.nil_append]
        obtain ⟨s1, s2, s3, s4⟩ := a4
        rcases Nat.lt_or_eq_of_le s2 with hh | hh
        · exact hb.on s ps a6 (s3 hh)
        · subst hh
          rw [rest_end]; exact hb.last ps a6 ⟨a, ha⟩
      · rw [if_neg hki]
        have hak' : act k := by rcases hak with a | a; exacts [a, absurd a hki]
        exact hb.on k q0 hq0 hak'
    · intro k hk hnk
      exact hb.off k hk (fun a => hnk (.inl a))
    · intro p' hp' _
      obtain ⟨q, hq, rfl⟩ := h.getPart a7 (le_refl n) hp'
      rw [if_neg (by omega)]
      exact hb.last q hq ⟨a, ha⟩

/-- What the const functions say. -/
theorem query {r : RP T} {n act c} {post : List Nat} (h : Links r n act) (hb : Begins r n act c post)
    {i : Nat} (hi : i < n) : ∃ b e, r.cbegin i = .ok b ∧ r.cend i = .ok e ∧
      (act i → ∃ s, IsNext act n i s ∧ b = (rest c post n i).head? ∧ e = (rest c post n s).head?) ∧
      (¬ act i → b = e ∧ c i = []) := by
  obtain ⟨p, hp, he⟩ := h.ent i (by omega)
  rw [RP.cbegin, h.checkValid hi, Res.ok_bind, part_ok hp, Res.ok_bind, RP.cend, h.checkValid hi,
    Res.ok_bind, part_ok hp, Res.ok_bind]
  by_cases ha : act i
  · obtain ⟨hn, _⟩ := he.on hi ha
    obtain ⟨q, hq, _⟩ := h.ent p.succ hn.2.1
    rw [part_ok hq, Res.ok_bind]
    refine ⟨_, _, rfl, rfl, fun _ => ⟨_, hn, hb.on i p hp ha, ?_⟩, fun hh => absurd ha hh⟩
    rcases Nat.lt_or_eq_of_le hn.2.1 with hh | hh
    · exact hb.on _ q hq (hn.2.2.1 hh)
    · rw [hh] at hq ⊢; rw [rest_end]; exact hb.last q hq ⟨i, ha⟩
  · obtain ⟨e1, e2⟩ := he.off hi ha
    rw [e1, part_ok hp, Res.ok_bind]
    exact ⟨_, _, rfl, rfl, fun hh => absurd hh ha, fun _ => ⟨rfl, hb.off i hi ha⟩⟩

/-- `validate` passes when the test `active()` is right everywhere. -/
theorem validate_ok {r : RP T} {n act} (h : Links r n act)
    (ha : ∀ k p, r.parts[k]? = some p → act k → p.active = true) : r.validate = .ok () := by
  have loop : ∀ m i last next, i + m = n → IsPrev act n i last → (i ≤ next ∧ next ≤ n ∧ (next < n → act next) ∧
      ∀ k, i ≤ k → k < next → ¬ act k) → r.validateLoop m i last next = .ok () := by
    intro m
    induction m with
    | zero => intro i last next _ _ _; rfl
    | succ m ih =>
      intro i last next hm hl hx
      obtain ⟨x1, x2, x3, x4⟩ := hx
      have hi : i < n := by omega
      obtain ⟨p, hp, he⟩ := h.ent i (by omega)
      rw [RP.validateLoop, h.validIdx, Res.ok_bind, decide_eq_true hi, if_pos rfl, part_ok hp, Res.ok_bind]
      by_cases hai : act i
      · obtain ⟨⟨s1, s2, s3, s4⟩, hpv⟩ := he.on hi hai
        have hni : i = next := by
          rcases Nat.lt_or_eq_of_le x1 with hh | hh
          · exact absurd hai (x4 i (le_refl _) hh)
          · exact hh
        have hpl := isPrev_unique hpv hl
        rw [if_neg (by omega), RP.activeIdx, h.validIdx, Res.ok_bind, decide_eq_true hi, if_pos rfl,
          part_ok hp, Res.ok_bind, Res.ok_bind, ha i p hp hai, decide_eq_true hni, decide_eq_true hpl,
          decide_eq_true (show p.succ > i from s1), if_pos (by rfl)]
        refine ih (i + 1) i p.succ (by omega) (.inr ⟨by omega, hi, hai, fun k h1 h2 => by omega⟩)
          ⟨s1, s2, s3, fun k h1 h2 => s4 k (by omega) h2⟩
      · obtain ⟨o1, o2⟩ := he.off hi hai
        have hni : i ≠ next := by
          rintro rfl; exact hai (x3 hi)
        rw [if_pos ⟨o1, o2⟩, show p.active = false by simp [Part.active, o1, o2], if_neg (by simp)]
        refine ih (i + 1) last next (by omega) ?_ ⟨by omega, x2, x3, fun k h1 h2 => x4 k (by omega) h2⟩
        rcases hl with ⟨a, b⟩ | ⟨a, b, d, e⟩
        · refine .inl ⟨a, fun k hk => ?_⟩
          by_cases hki : k = i
          · subst hki; exact hai
          · exact b k (by omega)
        · refine .inr ⟨by omega, b, d, fun k h1 h2 => ?_⟩
          by_cases hki : k = i
          · subst hki; exact hai
          · exact e k h1 (by omega)
  obtain ⟨p, hp, he⟩ := h.ent n (le_refl _)
  obtain ⟨⟨f1, f2, f3⟩, _⟩ := he.last rfl
  rw [RP.validate, h.idx, if_pos h.len.symm, part_ok hp, Res.ok_bind]
  exact loop n 0 n p.succ (by omega) (.inl ⟨rfl, fun k hk => by omega⟩)
    ⟨by omega, f1, f2, fun k _ h2 => f3 k h2⟩

/-- `validate` fails when just one region is active. -/
theorem validate_sole {r : RP T} {n act} (h : Links r n act) {a : Nat} (ha : act a)
    (hs : ∀ b, act b → b = a) : r.validate = .error .assertion := by
  have han := h.lt a ha
  have loop : ∀ m i last next, i + m = n → i ≤ a → r.validateLoop m i last next = .error .assertion := by
    intro m
    induction m with
    | zero => intro i last next h1 h2; omega
    | succ m ih =>
      intro i last next hm hia
      have hi : i < n := by omega
      obtain ⟨p, hp, he⟩ := h.ent i (by omega)
      rw [RP.validateLoop, h.validIdx, Res.ok_bind, decide_eq_true hi, if_pos rfl, part_ok hp, Res.ok_bind]
      by_cases hai : i = a
      · subst hai
        obtain ⟨⟨s1, s2, s3, s4⟩, hpv⟩ := he.on hi ha
        have e1 : p.succ = n := by
          rcases Nat.lt_or_eq_of_le s2 with hh | hh
          · have := hs _ (s3 hh); omega
          · exact hh
        have e2 : p.pred = n := by
          rcases hpv with ⟨a', b⟩ | ⟨a', b, d, e⟩
          · exact a'
          · have := hs _ d; omega
        rw [if_neg (by omega), RP.activeIdx, h.validIdx, Res.ok_bind, decide_eq_true hi, if_pos rfl,
          part_ok hp, Res.ok_bind, Res.ok_bind, show p.active = false by simp [Part.active, e1, e2],
          if_neg (by simp)]
      · have hni : ¬ act i := fun hh => hai (hs i hh)
        obtain ⟨o1, o2⟩ := he.off hi hni
        rw [if_pos ⟨o1, o2⟩, show p.active = false by simp [Part.active, o1, o2], if_neg (by simp)]
        exact ih (i + 1) last next (by omega) (by omega)
  obtain ⟨p, hp, he⟩ := h.ent n (le_refl _)
  rw [RP.validate, h.idx, if_pos h.len.symm, part_ok hp, Res.ok_bind]
  exact loop n 0 n p.succ (by omega) (by omega)

/-- The new partition. -/
theorem make_ok (T : Type) {n : Nat} (h0 : 0 < n) (hn : n < badIdx) (post : List Nat) :
    ∃ r : RP T, RP.make n = .ok r ∧ Links r n (fun _ => False) ∧ Begins r n (fun _ => False) (fun _ => []) post := by
  refine ⟨_, by rw [RP.make, if_pos h0], ⟨rfl, by simp, hn, fun a ha => ha.elim, ?_⟩, ?_, fun _ _ _ => rfl, ?_⟩
  · intro i hi
    refine ⟨_, by rw [List.getElem?_map, List.getElem?_range (by omega)]; rfl, fun _ hh => hh.elim,
      fun _ _ => ⟨rfl, rfl⟩, fun hh => ?_⟩
    subst hh
    exact ⟨⟨le_refl _, fun hh => absurd hh (by simp [Part.deactivate]), fun k _ hh => hh⟩,
      .inl ⟨rfl, fun k _ hh => hh⟩⟩
  · intro i p _ hh; exact hh.elim
  · rintro p _ ⟨a, ha⟩; exact ha.elim

/-- Looking at a region when at least two are active. -/
theorem look_ok {r : RP T} {n act c} {post : List Nat} (h : Links r n act)
    (hb : Begins r n act c post) {i : Nat} (hi : i < n) (h2 : ∃ a b, act a ∧ act b ∧ a ≠ b) :
    ∃ b e r1 r2, r.mbegin i = .ok (b, r1) ∧ r1.mend i = .ok (e, r2) ∧
      Links r2 n (fun k => act k ∨ k = i) ∧ Begins r2 n (fun k => act k ∨ k = i) c post ∧
      ∃ s, IsNext act n i s ∧ b = (rest c post n i).head? ∧ e = (rest c post n s).head? := by
  obtain ⟨r1, a1, a2, a3⟩ := activate_two h hb hi h2
  obtain ⟨a, b, ha, hbb, hab⟩ := h2
  obtain ⟨r2, b1, b2, b3⟩ := activate_two a2 a3 hi ⟨a, b, .inl ha, .inl hbb, hab⟩
  have hact : (fun k => (act k ∨ k = i) ∨ k = i) = (fun k => act k ∨ k = i) := by
    funext k; apply propext; constructor
    · rintro (h | h); exacts [h, .inr h]
    · exact .inl
  rw [hact] at b2 b3
  obtain ⟨p1, hp1, he1⟩ := a2.ent i (by omega)
  obtain ⟨p2, hp2, he2⟩ := b2.ent i (by omega)
  obtain ⟨hn, _⟩ := he2.on hi (.inr rfl)
  obtain ⟨q, hq, _⟩ := b2.ent p2.succ hn.2.1
  refine ⟨p1.begin, q.begin, r1, r2, ?_, ?_, b2, b3, p2.succ, ?_, a3.on i p1 hp1 (.inr rfl), ?_⟩
  · rw [RP.mbegin, h.checkValid hi, Res.ok_bind, a1, Res.ok_bind, part_ok hp1]; rfl
  · rw [RP.mend, a2.checkValid hi, Res.ok_bind, b1, Res.ok_bind, part_ok hp2, Res.ok_bind, part_ok hq]; rfl
  · obtain ⟨s1, s2, s3, s4⟩ := hn
    refine ⟨s1, s2, fun hh => ?_, fun k h1 h2 h3 => s4 k h1 h2 (.inl h3)⟩
    rcases s3 hh with hx | hx
    · exact hx
    · omega
  · rcases Nat.lt_or_eq_of_le hn.2.1 with hh | hh
    · exact b3.on _ q hq (hn.2.2.1 hh)
    · rw [hh] at hq ⊢; rw [rest_end]; exact b3.last q hq ⟨i, .inr rfl⟩

theorem Begins.ext {r : RP T} {n act c} {c' : Nat → List Nat} {post : List Nat} (h : Begins r n act c post)
    (he : ∀ k, c' k = c k) : Begins r n act c' post := by
  have : c' = c := funext he
  rw [this]; exact h

/-- A whole history. -/
theorem run_ok {n : Nat} : ∀ (ops : List ROp) (r : RP T) (seen : List Nat) (c : Nat → List Nat) (post : List Nat),
    Links r n (· ∈ seen) → Begins r n (· ∈ seen) c (ops.flatMap ROp.elems ++ post) →
    (ops.flatMap ROp.elems ++ post).Nodup → post ≠ [] → Orderly n seen ops →
    ∃ r', runOps r (ops.flatMap ROp.elems ++ post) ops = .ok r' ∧
      Links r' n (· ∈ seen ++ ops.flatMap ROp.touches) ∧
      Begins r' n (· ∈ seen ++ ops.flatMap ROp.touches) (fun k => c k ++ regionOf ops k) post := by
  intro ops
  induction ops with
  | nil =>
    intro r seen c post h hb _ _ _
    refine ⟨r, rfl, ?_, ?_⟩
    · simpa using h
    · simpa [regionOf] using hb
  | cons o ops ih =>
    intro r seen c post h hb hd hp ho
    cases o with
    | app i xs =>
      obtain ⟨o1, o2, o3⟩ := ho
      simp only [List.flatMap_cons, ROp.elems] at hb hd ⊢
      rw [List.append_assoc] at hb hd ⊢
      rw [runOps, List.drop_left]
      by_cases hx : xs = []
      · subst hx
        rw [List.nil_append] at hb hd ⊢
        rw [RP.append, h.checkValid o1, Res.ok_bind, if_pos rfl, Res.ok_bind]
        simp only [ROp.touches, List.append_nil, List.nil_append] at o3 ⊢
        obtain ⟨r', e1, e2, e3⟩ := ih r seen c post h hb hd hp o3
        refine ⟨r', e1, e2, e3.ext (fun k => ?_)⟩
        simp [regionOf]
      · have ht : ROp.touches (.app i xs) = [i] := by
          cases xs with
          | nil => exact absurd rfl hx
          | cons x xs => rfl
        have hp' : List.flatMap ROp.elems ops ++ post ≠ [] := by simp [hp]
        obtain ⟨r1, a1, a2, a3⟩ := append_ok h hb o1 hx hp' hd (o2 hx)
        rw [a1, Res.ok_bind, ht]
        have hs : (fun k => k ∈ seen ∨ k = i) = (· ∈ seen ++ [i]) := by
          funext k; simp
        rw [hs] at a2 a3
        rw [ht] at o3
        obtain ⟨r', e1, e2, e3⟩ := ih r1 (seen ++ [i]) (addTo c i xs) post a2 a3
          (List.nodup_append.mp hd).2.1 hp o3
        rw [← List.append_assoc]
        refine ⟨r', e1, e2, e3.ext (fun k => ?_)⟩
        by_cases hk : k = i
        · subst hk; simp [regionOf, addTo]
        · have : ¬ i = k := fun e => hk e.symm
          simp [regionOf, addTo, hk, this]
    | look i =>
      obtain ⟨o1, ⟨a, ha, b, hbb, hab⟩, o3⟩ := ho
      simp only [List.flatMap_cons, ROp.elems, ROp.touches, List.nil_append] at hb hd ⊢
      obtain ⟨b', e, r1, r2, a1, a2, a3, a4, _⟩ := look_ok h hb o1 ⟨a, b, ha, hbb, hab⟩
      rw [runOps, a1, Res.ok_bind]
      simp only [a2, Res.ok_bind]
      have hs : (fun k => k ∈ seen ∨ k = i) = (· ∈ seen ++ [i]) := by
        funext k; simp
      rw [hs] at a3 a4
      obtain ⟨r', e1, e2, e3⟩ := ih r2 (seen ++ [i]) c post a3 a4 hd hp o3
      rw [← List.append_assoc]
      refine ⟨r', e1, e2, e3.ext (fun k => ?_)⟩
      simp [regionOf]

end Reg
end FLPR
