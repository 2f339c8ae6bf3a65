import Verif.Format.Model
import Verif.LogicalLine.EmptyProps
import Verif.LogicalFile.SplitStmtLemmas
/-! # The statements of a line of which the first one is taken off -/

namespace FLPR
open Spec

theorem stmts_segments (l : LLine) (h : l = l.initStmts) : l.stmts.map (slice l.frags) = realSegments l.frags := by
  have := (C16_statements l).1
  rw [← h] at this
  exact this

/-- The statements behind the first one are those of the tokens from the second one on. -/
theorem stmts_behind (l : LLine) (hl : l = l.initStmts) (r0 r1 : Nat × Nat) (rs : List (Nat × Nat)) (hs : l.stmts = r0 :: r1 :: rs) :
    realSegments (l.frags.drop r1.1) = (r1 :: rs).map (slice l.frags) ∧
    (({ l with frags := l.frags.drop r1.1 } : LLine).initStmts).stmts.length = rs.length + 1 := by
  obtain ⟨hp, hr⟩ := C16_ranges l
  rw [← hl] at hp hr
  rw [hs] at hp
  have hm1 := (hr r1).mp (by rw [hs]; simp)
  have h01 : r0.2 < r1.1 := (List.pairwise_cons.mp hp).1 r1 (by simp)
  have hm0 := (hr r0).mp (by rw [hs]; simp)
  obtain ⟨a1, a2, _, a4, _⟩ := hm1
  obtain ⟨t, ht, hsemi⟩ : ∃ t, l.frags[r1.1 - 1]? = some t ∧ t.token = Tag.TK_SEMICOLON := by
    rcases a4 with a4 | a4
    · omega
    · exact a4
  obtain ⟨hlt, hte⟩ := List.getElem?_eq_some_iff.mp ht
  have hcut : l.frags = l.frags.take (r1.1 - 1) ++ t :: l.frags.drop r1.1 := by
    conv_lhs => rw [← List.take_append_drop (r1.1 - 1) l.frags, List.drop_eq_getElem_cons hlt, hte]
    rw [show r1.1 - 1 + 1 = r1.1 by omega]
  have hlen : (l.frags.take (r1.1 - 1)).length = r1.1 - 1 := by rw [List.length_take]; omega
  have happ : l.stmts = (initStmtsGo 0 none (l.frags.take (r1.1 - 1))).1 ++ (initStmtsGo r1.1 none (l.frags.drop r1.1)).1 := by
    have : l.stmts = (initStmtsGo 0 none l.frags).1 := by
      conv_lhs => rw [hl]
      rfl
    rw [this]
    conv_lhs => rw [hcut]
    rw [initStmtsGo_append _ _ _ ((isSemi_iff t).mpr hsemi), hlen, show 0 + (r1.1 - 1) + 1 = r1.1 by omega]
  have hX : ∀ r ∈ (initStmtsGo 0 none (l.frags.take (r1.1 - 1))).1, r.1 < r1.1 := by
    intro r hr
    have := (C16_ranges { l with frags := l.frags.take (r1.1 - 1) }).2 r
    have hm := this.mp hr
    have h2 := hm.2.1
    have h1 := hm.1
    simp only [List.length_take] at h2
    omega
  have hY : ∀ r ∈ (initStmtsGo r1.1 none (l.frags.drop r1.1)).1, r1.1 ≤ r.1 := by
    intro r hr
    simpa using initStmtsGo_lower _ r1.1 none (by simp) r hr
  generalize (initStmtsGo 0 none (l.frags.take (r1.1 - 1))).1 = X at happ hX
  have hsp := initStmtsGo_spec (l.frags.drop r1.1) (l.frags.take r1.1) [] none (by simp) (.inl ⟨rfl, rfl⟩)
  simp only [List.length_nil, Nat.add_zero, List.append_nil, List.nil_append] at hsp
  rw [show (l.frags.take r1.1).length = r1.1 by rw [List.length_take]; omega, List.take_append_drop] at hsp
  have hYe : (initStmtsGo r1.1 none (l.frags.drop r1.1)).1 = r1 :: rs := by
    rw [hs] at happ
    generalize (initStmtsGo r1.1 none (l.frags.drop r1.1)).1 = Y at happ hY
    cases X with
    | nil =>
      rw [List.nil_append] at happ
      have := hY r0 (by rw [← happ]; simp)
      have := hm0.1
      omega
    | cons x X =>
      rw [List.cons_append, List.cons.injEq] at happ
      cases X with
      | nil => exact happ.2.symm
      | cons y X =>
        have e := happ.2
        rw [List.cons_append, List.cons.injEq] at e
        have := hX y (by simp)
        rw [← e.1] at this
        omega
  rw [hYe] at hsp
  refine ⟨hsp.1.symm, ?_⟩
  have h2 := (C16_statements { l with frags := l.frags.drop r1.1 }).1
  have h3 := congrArg List.length h2
  rw [List.length_map] at h3
  show ({ l with frags := l.frags.drop r1.1 } : LLine).initStmts.stmts.length = _
  rw [h3]
  show ((segments (l.frags.drop r1.1)).filter (fun s => !s.isEmpty)).length = _
  rw [← hsp.1]
  simp

/-- The first statement begins behind semicolons only. -/
theorem first_slice (l : LLine) (r0 : Nat × Nat) : (l.frags.take r0.2).drop r0.1 = slice l.frags r0 := by
  rw [slice, List.drop_take]

theorem segs_noSemi (ts : List Tok) : ∀ s ∈ segments ts, ∀ t ∈ s, t.token ≠ Tag.TK_SEMICOLON := by
  induction ts with
  | nil =>
    intro s hs t ht
    simp only [segments, List.mem_singleton] at hs
    subst hs
    simp at ht
  | cons u us ih =>
    intro s hs t ht
    rw [segments] at hs
    split at hs
    · rcases List.mem_cons.mp hs with rfl | hs
      · simp at ht
      · exact ih s hs t ht
    · rename_i hu
      split at hs
      · rename_i e
        exact absurd e (segments_ne us)
      · rename_i s0 ss e
        rcases List.mem_cons.mp hs with rfl | hs
        · rcases List.mem_cons.mp ht with rfl | ht
          · exact hu
          · exact ih s0 (by rw [e]; simp) t ht
        · exact ih s (by rw [e]; simp [hs]) t ht

/-- Tokens without empty statements and with at most one statement are that statement. -/
theorem only_segment {fr : List Tok} (h : fr = [] ∨ [] ∉ segments fr) (h1 : (realSegments fr).length < 2) :
    fr = (realSegments fr).flatten := by
  rcases h with rfl | h
  · rfl
  have hr : realSegments fr = segments fr := by
    unfold realSegments
    rw [List.filter_eq_self]
    intro s hs
    cases s with
    | nil => exact absurd hs h
    | cons a s => rfl
  rw [hr] at h1 ⊢
  clear hr
  have key : ∀ ts : List Tok, (segments ts).length < 2 → ts = (segments ts).flatten := by
    intro ts
    induction ts with
    | nil => intro _; rfl
    | cons u us ih =>
      intro h
      rw [segments] at h ⊢
      split
      · rename_i hu
        rw [if_pos hu] at h
        have := List.length_pos_iff.mpr (segments_ne us)
        simp at h
        omega
      · rename_i hu
        rw [if_neg hu] at h
        cases e : segments us with
        | nil => exact absurd e (segments_ne us)
        | cons s0 ss =>
          rw [e] at h ih
          simp only [List.length_cons] at h ih
          have := ih h
          simp only [List.flatten_cons, List.cons_append, List.cons.injEq, true_and]
          simpa using this
  exact key fr h1

end FLPR
