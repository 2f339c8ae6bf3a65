import Verif.StmtParser.IoRun
import Verif.StmtParser.IoStd
/-!
# Implied-do loops and lists of output items
-/

namespace FLPR
namespace SP
open Spec

/-! ### Too late for a variable -/

theorem inside_late {k : Nat} {g : VForm} {ts : List Tok} (h : ts.length < k) (hg : g.exec k ts = .stuck ∨ g.exec k ts = .acts none) :
    (insideV g).exec k ts = .stuck := by
  have hv : VForm.exec k .var ts = .stuck := by rw [VForm.exec, varL, if_pos h]
  have hi : (inputV g).exec k ts = .stuck := by
    rw [inputV, VForm.alts, VForm.exec]
    rcases hg with e | e
    · rw [e]; rfl
    · rw [e, elseA, VForm.alts, VForm.exec, hv]; rfl
  rw [insideV, VForm.seqs, VForm.exec, listV, VForm.seqs, VForm.exec, objectV, VForm.alts, VForm.exec, VForm.seqs, VForm.exec, hi]
  rfl

theorem ido_late {k : Nat} : ∀ n ts, ts.length < k → (idoV n).exec k ts = .stuck ∨ (idoV n).exec k ts = .acts none := by
  intro n
  induction n with
  | zero => intro ts _; exact .inr rfl
  | succ n ih =>
    intro ts h
    rw [idoV, impliedV, VForm.seqs, VForm.exec]
    cases ht : (VForm.base (.tok Tag.TK_PARENL)).exec k ts with
    | stuck => exact .inl rfl
    | acts r =>
      cases r with
      | none => exact .inr rfl
      | some r =>
        obtain ⟨a, rfl, _⟩ := exec_tok_some ht
        have hr : r.length < k := by simp at h; omega
        left
        rw [thenA, VForm.seqs, VForm.exec, inside_late hr (ih r hr)]
        rfl

/-- An implied do whose parentheses are the last ones. -/
theorem ido_last {k n : Nat} {o : Tok} {ts : List Tok} (ho : o.token = Tag.TK_PARENL) (h : ts.length < k) :
    (idoV (n + 1)).exec k (o :: ts) = .stuck := by
  rw [idoV, impliedV, VForm.seqs, VForm.exec, VForm.exec, PForm.run, PForm.take1, if_pos (by simp [ho]), thenA, VForm.seqs, VForm.exec,
    inside_late h (ido_late n ts h)]
  rfl

theorem ido_other {k n : Nat} {ts : List Tok} (h : PForm.headTag ts ≠ Tag.TK_PARENL) : (idoV n).exec k ts = .acts none := by
  cases n with
  | zero => rfl
  | succ n =>
    rw [idoV, impliedV, VForm.seqs, VForm.exec, VForm.exec, PForm.run]
    cases ts with
    | nil => rfl
    | cons a ts =>
      have h : a.token ≠ Tag.TK_PARENL := h
      rw [PForm.take1, if_neg (by simp [h])]
      rfl

/-! ### Properly nested pieces of one another -/

theorem wn_no_close {c : Int} {l : List Int} (h : WellNested (c :: l)) (hc : closer c) : False := by
  cases h with
  | plain hp _ => rcases hc with rfl | rfl; exact hp.2.1 rfl; exact hp.2.2.2 rfl
  | paren _ _ => rcases hc with h | h <;> exact absurd h (by decide)
  | bracket _ _ => rcases hc with h | h <;> exact absurd h (by decide)

theorem wn_within {w : List Int} (hw : WellNested w) : ∀ {z a rest : List Int} {c : Int}, WellNested a → closer c →
    w ++ z = a ++ c :: rest → ∃ a2, a = w ++ a2 ∧ WellNested a2 := by
  induction hw with
  | nil => intro z a rest c ha _ _; exact ⟨a, rfl, ha⟩
  | @plain t ts hp _ ih =>
    intro z a rest c ha hc e
    cases a with
    | nil =>
      injection e with e _
      rcases hc with rfl | rfl
      · exact absurd e hp.2.1
      · exact absurd e hp.2.2.2
    | cons b a =>
      injection e with e1 e2
      subst e1
      obtain ⟨a2, rfl, h2⟩ := ih (wn_plain_inv ha hp) hc e2
      exact ⟨a2, rfl, h2⟩
  | @paren x y hx hy ihx ihy =>
    intro z a rest c ha hc e
    cases ha with
    | nil => injection e with e _; rcases hc with rfl | rfl <;> exact absurd e (by decide)
    | plain hp _ => injection e with e _; exact absurd e.symm hp.1
    | bracket _ _ => injection e with e _; exact absurd e (by decide)
    | @paren x' y' hx' hy' =>
      simp only [List.append_assoc, List.cons_append] at e
      injection e with _ e
      obtain ⟨x2, rfl, hx2⟩ := ihx hx' (.inl rfl) e
      rw [List.append_assoc, List.append_cancel_left_eq] at e
      cases x2 with
      | nil =>
        injection e with _ e
        obtain ⟨y2, rfl, hy2⟩ := ihy hy' hc e
        exact ⟨y2, by simp, hy2⟩
      | cons b x2 => injection e with e _; rw [← e] at hx2; exact (wn_no_close hx2 (.inl rfl)).elim
  | @bracket x y hx hy ihx ihy =>
    intro z a rest c ha hc e
    cases ha with
    | nil => injection e with e _; rcases hc with rfl | rfl <;> exact absurd e (by decide)
    | plain hp _ => injection e with e _; exact absurd e.symm hp.2.2.1
    | paren _ _ => injection e with e _; exact absurd e (by decide)
    | @bracket x' y' hx' hy' =>
      simp only [List.append_assoc, List.cons_append] at e
      injection e with _ e
      obtain ⟨x2, rfl, hx2⟩ := ihx hx' (.inr rfl) e
      rw [List.append_assoc, List.append_cancel_left_eq] at e
      cases x2 with
      | nil =>
        injection e with _ e
        obtain ⟨y2, rfl, hy2⟩ := ihy hy' hc e
        exact ⟨y2, by simp, hy2⟩
      | cons b x2 => injection e with e _; rw [← e] at hx2; exact (wn_no_close hx2 (.inr rfl)).elim

/-- Tokens up to a closing parenthesis. -/
structure Ctx (k : Nat) (a : List Tok) (c : Tok) (rest : List Tok) : Prop where
  wn : WellNested (a.map (·.token))
  close : c.token = Tag.TK_PARENR
  late : k ≤ rest.length
  nested : Nested ((a ++ c :: rest).map (·.token))
  front : FrontOk k (a ++ c :: rest)

theorem Ctx.next {k : Nat} {a1 a2 : List Tok} {c : Tok} {rest : List Tok} (h : Ctx k (a1 ++ a2) c rest)
    (hw : WellNested (a2.map (·.token))) : Ctx k a2 c rest := by
  have h1 := h.nested
  have h2 := h.front
  rw [List.append_assoc] at h1 h2
  rw [List.map_append] at h1
  exact ⟨hw, h.close, h.late, h1.suffix, frontOk_suffix h2⟩

theorem Ctx.within {k : Nat} {a : List Tok} {c : Tok} {rest w z : List Tok} (h : Ctx k a c rest) (e : a ++ c :: rest = w ++ z)
    (hw : WellNested (w.map (·.token))) : ∃ a2, a = w ++ a2 ∧ z = a2 ++ c :: rest ∧ WellNested (a2.map (·.token)) := by
  have em := congrArg (List.map (·.token)) e.symm
  rw [List.map_append, List.map_append, List.map_cons] at em
  obtain ⟨l, hl, hwl⟩ := wn_within hw h.wn (.inl h.close) em
  have hlen := congrArg List.length hl
  rw [List.length_append, List.length_map, List.length_map] at hlen
  rcases List.append_eq_append_iff.mp e with ⟨d, rfl, e2⟩ | ⟨d, rfl, rfl⟩
  · cases d with
    | nil => exact ⟨[], by simp, by simpa using e2.symm, .nil⟩
    | cons b d => simp at hlen; omega
  · refine ⟨d, rfl, rfl, ?_⟩
    rw [List.map_append, List.append_cancel_left_eq] at hl
    rw [hl]; exact hwl

/-- The form returns, and takes something properly nested. -/
def Neat (k : Nat) (V : VForm) : Prop :=
  ∀ a c rest, Ctx k a c rest → V.exec k (a ++ c :: rest) ≠ .stuck ∧ ∀ z, V.exec k (a ++ c :: rest) = .acts (some z) →
    ∃ a1 a2, a = a1 ++ a2 ∧ z = a2 ++ c :: rest ∧ WellNested (a1.map (·.token)) ∧ WellNested (a2.map (·.token))

theorem neat_base {k : Nat} {F : PForm} (h : balF [] F.erase = some []) : Neat k (.base F) := by
  intro a c rest hc
  refine ⟨(fun h => by cases h), fun z hz => ?_⟩
  injection hz with hz
  obtain ⟨w, e, hw⟩ := run_sound _ _ _ hc.nested hz
  obtain ⟨a2, h1, h2, h3⟩ := hc.within e (balF_wn h hw)
  exact ⟨w, a2, h1, h2, balF_wn h hw, h3⟩

theorem neat_var {k : Nat} : Neat k .var := by
  intro a c rest hc
  constructor
  · intro h
    have hl := hc.late
    rw [VForm.exec, varL, if_neg (by simp; omega)] at h
    cases h
  · intro z hz
    obtain ⟨w, e, hw⟩ := varL_wn hc.nested hc.front hz
    obtain ⟨a2, h1, h2, h3⟩ := hc.within e hw
    exact ⟨w, a2, h1, h2, hw, h3⟩

theorem neat_seq {k : Nat} {a b : VForm} (ha : Neat k a) (hb : Neat k b) : Neat k (.seq a b) := by
  intro l c rest hc
  obtain ⟨h1, h2⟩ := ha l c rest hc
  cases he : a.exec k (l ++ c :: rest) with
  | stuck => exact absurd he h1
  | acts r =>
    cases r with
    | none => rw [VForm.exec, he]; exact ⟨(fun h => by cases h), fun z h => by cases h⟩
    | some r =>
      obtain ⟨a1, a2, rfl, rfl, h3, h4⟩ := h2 r he
      obtain ⟨h5, h6⟩ := hb a2 c rest (hc.next h4)
      rw [VForm.exec, he, thenA]
      refine ⟨h5, fun z hz => ?_⟩
      obtain ⟨b1, b2, rfl, rfl, h7, h8⟩ := h6 z hz
      refine ⟨a1 ++ b1, b2, by simp, rfl, ?_, h8⟩
      rw [List.map_append]
      exact wn_append h3 h7

theorem neat_alt {k : Nat} {a b : VForm} (ha : Neat k a) (hb : Neat k b) : Neat k (.alt a b) := by
  intro l c rest hc
  obtain ⟨h1, h2⟩ := ha l c rest hc
  rw [VForm.exec]
  cases he : a.exec k (l ++ c :: rest) with
  | stuck => exact absurd he h1
  | acts r =>
    cases r with
    | none => exact hb l c rest hc
    | some r => exact ⟨(fun h => by cases h), fun z h => by injection h with h; injection h with h; subst h; exact h2 r he⟩

theorem neat_star {k : Nat} {t : Int} {b : VForm} (ht : balF [] (PForm.tok t).erase = some []) (hb : Neat k b) :
    Neat k (.star (.seq (.base (.tok t)) b)) := by
  have hs : Neat k (.seq (.base (.tok t)) b) := neat_seq (neat_base ht) hb
  intro l c rest hc
  rw [VForm.exec]
  generalize hm0 : (l ++ c :: rest).length + 1 = m
  have hm : (l ++ c :: rest).length < m := by omega
  clear hm0
  induction m generalizing l with
  | zero => omega
  | succ m ih =>
    obtain ⟨h1, h2⟩ := hs l c rest hc
    rw [starA]
    cases he : (VForm.seq (.base (.tok t)) b).exec k (l ++ c :: rest) with
    | stuck => exact absurd he h1
    | acts r =>
      cases r with
      | none =>
        refine ⟨(fun h => by cases h), fun z h => ?_⟩
        injection h with h; injection h with h; subst h
        exact ⟨[], l, rfl, rfl, .nil, hc.wn⟩
      | some r =>
        obtain ⟨a1, a2, rfl, rfl, h3, h4⟩ := h2 r he
        have hne : a1 ≠ [] := by
          rintro rfl
          obtain ⟨q, e1, e2⟩ := exec_seq_some he
          obtain ⟨d, e3, _⟩ := exec_tok_some e1
          obtain ⟨x1, x2, e4, e5, _, hx⟩ := neat_base (k := k) ht _ _ _ hc |>.2 q e1
          rw [List.nil_append] at e4
          subst e5
          obtain ⟨y1, y2, e6, e7, _, _⟩ := (hb x2 c rest (by rw [List.nil_append, e4] at hc; exact hc.next hx)).2 _ e2
          have l1 := congrArg List.length e3
          have l2 := congrArg List.length e6
          have l3 := congrArg List.length e7
          simp at l1 l2 l3
          omega
        have hlt : (a2 ++ c :: rest).length < (a1 ++ a2 ++ c :: rest).length := by
          have := List.length_pos_iff.mpr hne
          simp
          omega
        simp only
        rw [if_pos hlt]
        obtain ⟨h5, h6⟩ := ih a2 (hc.next h4) (by omega)
        refine ⟨h5, fun z hz => ?_⟩
        obtain ⟨b1, b2, rfl, rfl, h7, h8⟩ := h6 z hz
        refine ⟨a1 ++ b1, b2, by simp, rfl, ?_, h8⟩
        rw [List.map_append]
        exact wn_append h3 h7

theorem neat_object {k : Nat} {g : VForm} (hg : Neat k g) : Neat k (objectV g) :=
  neat_alt (neat_seq (neat_alt hg (neat_alt neat_var (neat_base (by decide)))) (neat_seq (neat_base (by decide)) (neat_base (by decide))))
    (neat_alt (neat_seq (neat_alt hg (neat_alt (neat_base (by decide)) (neat_base (by decide))))
      (neat_seq (neat_base (by decide)) (neat_base (by decide)))) (neat_base (by decide)))

theorem neat_list {k : Nat} {a : VForm} (ha : Neat k a) : Neat k (listV a) :=
  neat_seq ha (neat_seq (neat_star (by decide) (neat_seq ha (neat_base (by decide)))) (neat_base (by decide)))

theorem neat_control {k : Nat} : Neat k controlV :=
  neat_seq neat_var <| neat_seq (neat_base (by decide)) <| neat_seq (neat_base (by decide)) <| neat_seq (neat_base (by decide)) <|
    neat_seq (neat_base (by decide)) <| neat_seq (neat_base (by decide)) <| neat_base (by decide)

theorem neat_inside {k : Nat} {g : VForm} (hg : Neat k g) : Neat k (insideV g) :=
  neat_seq (neat_list (neat_object hg)) <| neat_seq (neat_base (by decide)) <| neat_seq neat_control (neat_base (by decide))

/-- Where there is an implied do, there is an equals sign. -/
theorem inside_equal {k : Nat} {g : VForm} (hg : Neat k g) {m : List Tok} {c : Tok} {rest z : List Tok} (hc : Ctx k m c rest)
    (h : (insideV g).exec k (m ++ c :: rest) = .acts (some z)) :
    ∃ a e b, m = a ++ e :: b ∧ WellNested (a.map (·.token)) ∧ e.token = Tag.TK_EQUAL := by
  obtain ⟨q1, e1, h⟩ := exec_seq_some h
  obtain ⟨a1, m1, rfl, rfl, w1, w2⟩ := (neat_list (neat_object hg) _ _ _ hc).2 q1 e1
  have hc := hc.next w2
  obtain ⟨q2, e2, h⟩ := exec_seq_some h
  obtain ⟨a2, m2, rfl, rfl, w3, w4⟩ := (neat_base (by decide) _ _ _ hc).2 q2 e2
  have hc := hc.next w4
  obtain ⟨q3, e3, _⟩ := exec_seq_some h
  obtain ⟨q4, e4, h⟩ := exec_seq_some e3
  obtain ⟨a3, m3, rfl, rfl, w5, w6⟩ := (neat_var _ _ _ hc).2 q4 e4
  have hc := hc.next w6
  obtain ⟨q5, e5, _⟩ := exec_seq_some h
  obtain ⟨d, e6, e7⟩ := exec_tok_some e5
  cases m3 with
  | nil =>
    injection e6 with e6 _
    have := hc.close
    rw [e6, e7] at this
    exact absurd this (by decide)
  | cons b m3 =>
    injection e6 with e6 _
    subst e6
    refine ⟨a1 ++ (a2 ++ a3), b, m3, by simp, ?_, e7⟩
    rw [List.map_append, List.map_append]
    exact wn_append w1 (wn_append w3 w5)

/-- An implied do, or not, in parentheses that are not the last ones. -/
theorem implied_group {k : Nat} {g : VForm} (hg : Neat k g) {o c : Tok} {m rest : List Tok} (ho : o.token = Tag.TK_PARENL) (hc : Ctx k m c rest) :
    (impliedV g).exec k (o :: (m ++ c :: rest)) = .acts none ∨ ((impliedV g).exec k (o :: (m ++ c :: rest)) = .acts (some rest) ∧
      ∃ a e b, m = a ++ e :: b ∧ WellNested (a.map (·.token)) ∧ e.token = Tag.TK_EQUAL) := by
  obtain ⟨h1, h2⟩ := neat_inside hg _ _ _ hc
  rw [impliedV, VForm.seqs, VForm.exec, VForm.exec, PForm.run, PForm.take1, if_pos (by simp [ho]), thenA, VForm.seqs, VForm.exec]
  cases he : (insideV g).exec k (m ++ c :: rest) with
  | stuck => exact absurd he h1
  | acts r =>
    cases r with
    | none => exact .inl rfl
    | some z =>
      obtain ⟨a1, a2, e, rfl, _, w2⟩ := h2 z he
      cases a2 with
      | nil =>
        right
        refine ⟨?_, inside_equal hg hc he⟩
        rw [thenA, VForm.seqs, VForm.exec, VForm.exec, PForm.run, List.nil_append, PForm.take1, if_pos (by simp [hc.close]), thenA]
        rfl
      | cons b a2 =>
        left
        have : b.token ≠ Tag.TK_PARENR := fun h => wn_no_close w2 (.inl h)
        rw [thenA, VForm.seqs, VForm.exec, VForm.exec, PForm.run, List.cons_append, PForm.take1, if_neg (by simp [this])]
        rfl

theorem neat_implied {k : Nat} {g : VForm} (hg : Neat k g) : Neat k (impliedV g) := by
  intro a c rest hc
  by_cases hh : PForm.headTag (a ++ c :: rest) = Tag.TK_PARENL
  · cases a with
    | nil =>
      have hh : c.token = Tag.TK_PARENL := hh
      rw [hc.close] at hh
      exact absurd hh (by decide)
    | cons o a =>
      have ho : o.token = Tag.TK_PARENL := hh
      have hw := hc.wn
      rw [List.map_cons, ho] at hw
      generalize hl : Tag.TK_PARENL :: a.map (·.token) = l at hw
      cases hw with
      | nil => cases hl
      | plain hp _ => injection hl with hl _; exact absurd hl.symm hp.1
      | bracket _ _ => injection hl with hl _; exact absurd hl (by decide)
      | @paren m1 b1 hm hb =>
        injection hl with _ hl
        obtain ⟨m, a', rfl, hm', ha'⟩ := List.map_eq_append_iff.mp hl
        obtain ⟨d, b, rfl, hd, hb'⟩ := List.map_eq_cons_iff.mp ha'
        have hc2 : Ctx k m d (b ++ c :: rest) := by
          have n1 := hc.nested
          have f1 := hc.front
          rw [show o :: (m ++ d :: b) ++ c :: rest = [o] ++ (m ++ d :: (b ++ c :: rest)) by simp] at n1 f1
          rw [List.map_append] at n1
          have hl := hc.late
          exact ⟨by rw [hm']; exact hm, hd, by simp; omega, n1.suffix, frontOk_suffix f1⟩
        rw [show o :: (m ++ d :: b) ++ c :: rest = o :: (m ++ d :: (b ++ c :: rest)) by simp]
        rcases implied_group hg ho hc2 with h | ⟨h, _⟩
        · rw [h]; exact ⟨(fun h => by cases h), fun z h => by cases h⟩
        · rw [h]
          refine ⟨(fun h => by cases h), fun z h => ?_⟩
          injection h with h; injection h with h; subst h
          refine ⟨o :: (m ++ [d]), b, by simp, rfl, ?_, by rw [hb']; exact hb⟩
          simp only [List.map_cons, List.map_append, List.map_nil, ho, hd, hm']
          exact .paren (b := []) hm .nil
  · have : (impliedV g).exec k (a ++ c :: rest) = .acts none := by
      rw [impliedV, VForm.seqs, VForm.exec, VForm.exec, PForm.run]
      cases hl : a ++ c :: rest with
      | nil => rfl
      | cons b l =>
        rw [hl] at hh
        have hh : b.token ≠ Tag.TK_PARENL := hh
        rw [PForm.take1, if_neg (by simp [hh])]
        rfl
    rw [this]
    exact ⟨(fun h => by cases h), fun z h => by cases h⟩

theorem neat_ido {k : Nat} : ∀ n, Neat k (idoV n)
  | 0 => neat_base (by decide)
  | n + 1 => neat_implied (neat_ido n)

theorem ido_group {k n : Nat} {o c : Tok} {m rest : List Tok} (ho : o.token = Tag.TK_PARENL) (hc : Ctx k m c rest) :
    (idoV n).exec k (o :: (m ++ c :: rest)) = .acts none ∨ ((idoV n).exec k (o :: (m ++ c :: rest)) = .acts (some rest) ∧
      ∃ a e b, m = a ++ e :: b ∧ WellNested (a.map (·.token)) ∧ e.token = Tag.TK_EQUAL) := by
  cases n with
  | zero => exact .inl rfl
  | succ n => exact implied_group (neat_ido n) ho hc

end SP
end FLPR
