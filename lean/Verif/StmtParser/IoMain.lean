import Verif.StmtParser.IoLemmas
/-!
# Lists of output items
-/

namespace FLPR
namespace SP
open Spec

theorem listed_wn {its : List (List Tok)} {ts : List Tok} (h : Listed its ts) (hi : ∀ w ∈ its, IsExpr (w.map (·.token))) :
    WellNested (ts.map (·.token)) := by
  induction h with
  | one w => exact unbroken_wn (hi w (by simp)).1
  | cons w c hc _ ih =>
    rw [List.map_append, List.map_cons, hc]
    exact wn_append (unbroken_wn (hi w (by simp)).1) (.plain (by unfold Plain; decide) (ih fun v hv => hi v (by simp [hv])))

theorem listed_ne {its : List (List Tok)} {ts : List Tok} (h : Listed its ts) : its ≠ [] := by
  cases h <;> simp

/-! ### One item -/

theorem expr_run {k : Nat} {w u : List Tok} (hb : NoBad w) (hw : IsExpr (w.map (·.token))) (hu : exprStop (PForm.headTag u) = true) :
    (VForm.alts [.base .expr]).exec k (w ++ u) = .acts (some u) := by
  rw [VForm.alts, VForm.exec, VForm.exec, PForm.run, runExprL_complete hb hw hu]
  rfl

theorem expr_paren {w : List Tok} (hw : IsExpr (w.map (·.token))) :
    (∀ u, PForm.headTag (w ++ u) ≠ Tag.TK_PARENL) ∨ ∃ o m c r, w = o :: (m ++ c :: r) ∧ o.token = Tag.TK_PARENL ∧ c.token = Tag.TK_PARENR ∧
      WellNested (m.map (·.token)) ∧ WellNested (r.map (·.token)) := by
  obtain ⟨h1, t, l, h2, _, _⟩ := hw
  cases w with
  | nil => cases h2
  | cons o w =>
    by_cases ho : o.token = Tag.TK_PARENL
    · right
      rw [List.map_cons, ho] at h1
      generalize hl : Tag.TK_PARENL :: w.map (·.token) = l at h1
      cases h1 with
      | nil => cases hl
      | plain hp _ _ _ _ => injection hl with hl _; exact absurd hl.symm hp.1
      | bracket _ _ => injection hl with hl _; exact absurd hl (by decide)
      | @paren m1 b1 hm hb =>
        injection hl with _ hl
        obtain ⟨m, a', rfl, hm', ha'⟩ := List.map_eq_append_iff.mp hl
        obtain ⟨d, b, rfl, hd, hb'⟩ := List.map_eq_cons_iff.mp ha'
        exact ⟨o, m, d, b, rfl, ho, hd, by rw [hm']; exact hm, by rw [hb']; exact unbroken_wn hb⟩
    · exact .inl fun u => ho

theorem item_exec {k n : Nat} {w u : List Tok} (hb : NoBad w) (hn : Nested ((w ++ u).map (·.token))) (hf : FrontOk k (w ++ u))
    (hw : IsExpr (w.map (·.token))) (hu : exprStop (PForm.headTag u) = true) (hd : NoDoInFront w)
    (hk : ∀ o m c r, w = o :: (m ++ c :: r) → o.token = Tag.TK_PARENL → c.token = Tag.TK_PARENR → WellNested (m.map (·.token)) →
      WellNested (r.map (·.token)) → k ≤ (r ++ u).length) :
    (outputV (idoV n)).exec k (w ++ u) = .acts (some u) := by
  have he := expr_run (k := k) hb hw hu
  rw [outputV, VForm.alts, VForm.exec]
  rcases expr_paren hw with h | ⟨o, m, c, r, rfl, ho, hc, hm, hr⟩
  · rw [ido_other (h u), elseA, he]
  · have hctx : Ctx k m c (r ++ u) := by
      rw [show o :: (m ++ c :: r) ++ u = [o] ++ (m ++ c :: (r ++ u)) by simp] at hn hf
      rw [List.map_append] at hn
      exact ⟨hm, hc, hk o m c r rfl ho hc hm hr, hn.suffix, frontOk_suffix hf⟩
    rw [show o :: (m ++ c :: r) ++ u = o :: (m ++ c :: (r ++ u)) by simp] at he ⊢
    rcases ido_group (n := n) ho hctx with h | ⟨h, heq⟩
    · rw [h, elseA, he]
    · rw [h, elseA]
      cases r with
      | nil => rfl
      | cons b r => exact absurd heq (hd o m c (b :: r) rfl ho hc hm (by simp))

/-- A last item in parentheses. -/
theorem item_last {k n : Nat} {w : List Tok} (hw : IsGroup (w.map (·.token))) (hk : k = w.length) :
    (outputV (idoV (n + 1))).exec k w = .stuck := by
  obtain ⟨a, _, e⟩ := hw
  cases w with
  | nil => cases e
  | cons o w =>
    injection e with e _
    rw [outputV, VForm.alts, VForm.exec, ido_last e (by rw [hk]; simp)]
    rfl

/-! ### Several items -/

/-- The parsing of items, up to the last one. -/
theorem items_exec {k n : Nat} {its : List (List Tok)} {ts : List Tok} (hl : Listed its ts) (hb : NoBad ts) (hn : Nested (ts.map (·.token)))
    (hf : FrontOk k ts) (hi : ∀ w ∈ its, IsExpr (w.map (·.token))) (hd : ∀ w ∈ its, NoDoInFront w)
    (hk : ∀ p r, ts = p ++ r → r ≠ [] → WellNested (r.map (·.token)) → k ≤ r.length) {A : Act}
    (hA : A = .stuck ∨ A = .acts (some [])) (hlast : ∀ w, its.getLast? = some w → (outputV (idoV n)).exec k w = A) :
    (listV (outputV (idoV n))).exec k ts = A := by
  suffices key : ((outputV (idoV n)).exec k ts = .stuck ∧ A = .stuck) ∨ ∃ u, (outputV (idoV n)).exec k ts = .acts (some u) ∧ u.length < ts.length ∧
      ∀ m, u.length < m → starA ((VForm.seqs [.base (.tok Tag.TK_COMMA), outputV (idoV n)]).exec k) m u = A by
    rw [listV, VForm.seqs, VForm.exec]
    rcases key with ⟨h, rfl⟩ | ⟨u, h, _, hs⟩
    · rw [h]; rfl
    · rw [h, thenA, VForm.seqs, VForm.exec, VForm.exec, hs _ (Nat.lt_succ_self _)]
      rcases hA with rfl | rfl <;> rfl
  induction hl with
  | one w =>
    have h := hlast w rfl
    rcases hA with rfl | rfl
    · exact .inl ⟨h, rfl⟩
    · right
      have hne : w ≠ [] := by
        rintro rfl
        obtain ⟨_, t, r, e, _⟩ := hi [] (by simp)
        cases e
      refine ⟨[], h, List.length_pos_iff.mpr hne, fun m hm => ?_⟩
      cases m with
      | zero => cases hm
      | succ m => rfl
  | @cons its ts w c hc hls ih =>
    right
    have hwn := listed_wn hls fun v hv => hi v (by simp [hv])
    have hb1 : NoBad w := fun a ha => hb a (by simp [ha])
    have hb2 : NoBad ts := fun a ha => hb a (by simp [ha])
    have hw := item_exec (n := n) hb1 hn hf (hi w (by simp)) (by show exprStop c.token = true; rw [hc]; rfl) (hd w (by simp)) (by
      rintro o m d r rfl ho hd' hm hr
      refine hk (o :: (m ++ [d])) (r ++ c :: ts) (by simp) (by simp) ?_
      rw [List.map_append, List.map_cons, hc]
      exact wn_append hr (.plain (by unfold Plain; decide) hwn))
    have hne : w ≠ [] := by
      rintro rfl
      obtain ⟨_, t, r, e, _⟩ := hi [] (by simp)
      cases e
    have hpos := List.length_pos_iff.mpr hne
    have hn2 : Nested (ts.map (·.token)) := by
      rw [show w ++ c :: ts = (w ++ [c]) ++ ts by simp, List.map_append] at hn
      exact hn.suffix
    have hf2 : FrontOk k ts := by
      rw [show w ++ c :: ts = (w ++ [c]) ++ ts by simp] at hf
      exact frontOk_suffix hf
    have := ih hb2 hn2 hf2 (fun v hv => hi v (by simp [hv])) (fun v hv => hd v (by simp [hv]))
      (fun p r e => hk (w ++ c :: p) r (by rw [e]; simp)) (fun v hv => hlast v (by
        rw [List.getLast?_cons, hv]; rfl))
    refine ⟨c :: ts, hw, by simp; omega, fun m hm => ?_⟩
    obtain ⟨m, rfl⟩ : ∃ m', m = m' + 1 := ⟨m - 1, by omega⟩
    have hstep : (VForm.seqs [.base (.tok Tag.TK_COMMA), outputV (idoV n)]).exec k (c :: ts) =
        thenA ((outputV (idoV n)).exec k ts) ((VForm.seqs []).exec k) :=
      exec_base_some (by rw [PForm.run, PForm.take1, if_pos (by simp [hc])])
    rw [starA, hstep]
    rcases this with ⟨h, rfl⟩ | ⟨u, h, h2, hs⟩
    · rw [h]; rfl
    · rw [h, thenA]
      show (if u.length < (c :: ts).length then starA _ m u else .stuck) = A
      simp at hm
      rw [if_pos (by simp; omega)]
      exact hs m (by omega)

/-! ### What is taken are items -/

theorem bal_inside {g : VForm} (hg : ∀ st, g.balV st = some st) (st : List Bool) : (insideV g).balV st = some st := by
  have hw : ∀ t st, (t ≠ Tag.TK_PARENL ∧ t ≠ Tag.TK_BRACKETL ∧ t ≠ Tag.TK_PARENR ∧ t ≠ Tag.TK_BRACKETR) → balF st (.word t) = some st := by
    rintro t st ⟨h1, h2, h3, h4⟩
    rw [balF.eq_def]
    simp [h1, h2, h3, h4]
  have hc := fun st => hw Tag.TK_COMMA st (by decide)
  have he := fun st => hw Tag.TK_EQUAL st (by decide)
  simp [insideV, listV, objectV, inputV, outputV, controlV, VForm.seqs, VForm.alts, VForm.balV, PForm.erase, balF, PForm.seqs, hg, hc, he]
  exact hc st

theorem bal_ido : ∀ n st, (idoV n).balV st = some st
  | 0, st => rfl
  | n + 1, st => by
    have h := bal_inside (bal_ido n)
    rw [idoV, impliedV, VForm.seqs, VForm.balV, VForm.balV, show balF st (PForm.tok Tag.TK_PARENL).erase = some (true :: st) from rfl, Option.bind_some,
      VForm.seqs, VForm.balV, h, Option.bind_some]
    rfl

theorem ido_isGroup (n : Nat) : (idoV (n + 1)).isGroup = true := by
  have h := bal_inside (bal_ido n) []
  simp [idoV, impliedV, VForm.seqs, VForm.isGroup, VForm.closes, h]

theorem item_sound {k n : Nat} {ts z : List Tok} (hn : Nested (ts.map (·.token))) (hf : FrontOk k ts)
    (h : (outputV (idoV n)).exec k ts = .acts (some z)) : ∃ w, ts = w ++ z ∧ IsExpr (w.map (·.token)) := by
  rw [outputV, VForm.alts, VForm.exec] at h
  cases he : (idoV n).exec k ts with
  | stuck => rw [he] at h; cases h
  | acts r =>
    rw [he] at h
    cases r with
    | none =>
      rw [elseA, VForm.alts, VForm.exec, VForm.exec] at h
      cases hr : PForm.expr.run ts with
      | none => rw [hr] at h; cases h
      | some r =>
        rw [hr] at h
        injection h with h; injection h with h; subst h
        exact runExprL_sound hn hr
    | some r =>
      injection h with h; injection h with h; subst h
      cases n with
      | zero => cases he
      | succ n =>
        obtain ⟨v, m, e, hm, hv⟩ := isGroup_sound (ido_isGroup n) hn hf he
        exact ⟨v, e, group_expr ⟨m, hm, hv⟩⟩

theorem items_sound {k n : Nat} {ts z : List Tok} (hn : Nested (ts.map (·.token))) (hf : FrontOk k ts)
    (h : (listV (outputV (idoV n))).exec k ts = .acts (some z)) :
    ∃ its w, ts = w ++ z ∧ Listed its w ∧ (∀ v ∈ its, IsExpr (v.map (·.token))) ∧
      ∀ v, its.getLast? = some v → (outputV (idoV n)).exec k (v ++ z) = .acts (some z) := by
  have star : ∀ m ts, Nested (ts.map (·.token)) → FrontOk k ts →
      starA ((VForm.seqs [.base (.tok Tag.TK_COMMA), outputV (idoV n)]).exec k) m ts = .acts (some z) → ts = z ∨
      ∃ c its w, ts = c :: (w ++ z) ∧ c.token = Tag.TK_COMMA ∧ Listed its w ∧ (∀ v ∈ its, IsExpr (v.map (·.token))) ∧
        ∀ v, its.getLast? = some v → (outputV (idoV n)).exec k (v ++ z) = .acts (some z) := by
    intro m
    induction m with
    | zero => intro ts _ _ h; cases h
    | succ m ih =>
      intro ts hn hf h
      rw [starA] at h
      cases he : (VForm.seqs [.base (.tok Tag.TK_COMMA), outputV (idoV n)]).exec k ts with
      | stuck => rw [he] at h; cases h
      | acts r =>
        rw [he] at h
        cases r with
        | none => injection h with h; injection h with h; exact .inl h
        | some r =>
          simp only at h
          split at h
          · right
            obtain ⟨q, e1, e2⟩ := exec_seq_some he
            obtain ⟨c, rfl, hc⟩ := exec_tok_some e1
            obtain ⟨q2, e3, e4⟩ := exec_seq_some e2
            injection e4 with e4; injection e4 with e4; subst e4
            have hn1 : Nested (q.map (·.token)) := Nested.suffix (a := [c.token]) hn
            have hf1 : FrontOk k q := frontOk_suffix (w := [c]) hf
            obtain ⟨w, rfl, hw⟩ := item_sound hn1 hf1 e3
            have hn2 : Nested (q2.map (·.token)) := by rw [List.map_append] at hn1; exact hn1.suffix
            rcases ih q2 hn2 (frontOk_suffix hf1) h with rfl | ⟨d, its, v, rfl, hd, hl, hi, hx⟩
            · exact ⟨c, [w], w, rfl, hc, .one w, by simpa using hw, fun v hv => by
                rw [List.getLast?_singleton] at hv
                injection hv with hv; subst hv; exact e3⟩
            · refine ⟨c, w :: its, w ++ d :: v, by simp, hc, .cons w d hd hl, ?_, ?_⟩
              · intro u hu
                rcases List.mem_cons.mp hu with rfl | hu
                · exact hw
                · exact hi u hu
              · intro u hu
                rw [List.getLast?_cons_of_ne_nil (listed_ne hl)] at hu
                exact hx u hu
          · cases h
  obtain ⟨q, e1, e2⟩ := exec_seq_some h
  obtain ⟨w, rfl, hw⟩ := item_sound hn hf e1
  have hn2 : Nested (q.map (·.token)) := by rw [List.map_append] at hn; exact hn.suffix
  obtain ⟨q2, e3, e4⟩ := exec_seq_some e2
  injection e4 with e4; injection e4 with e4; subst e4
  rcases star _ q hn2 (frontOk_suffix hf) e3 with rfl | ⟨d, its, v, rfl, hd, hl, hi, hx⟩
  · exact ⟨[w], w, rfl, .one w, by simpa using hw, fun v hv => by
      rw [List.getLast?_singleton] at hv
      injection hv with hv; subst hv; exact e1⟩
  · refine ⟨w :: its, w ++ d :: v, by simp, .cons w d hd hl, ?_, ?_⟩
    · intro u hu
      rcases List.mem_cons.mp hu with rfl | hu
      · exact hw
      · exact hi u hu
    · intro u hu
      rw [List.getLast?_cons_of_ne_nil (listed_ne hl)] at hu
      exact hx u hu

end SP
end FLPR
