import Verif.LogicalLine.SplitText
import Verif.LogicalLine.EmptyProps
/-! # Further properties of splitting, where it fails, and examples (C20) -/

namespace FLPR
open Spec

theorem endRight_shiftLine {t : Tok} (d : Int) (h : EndRight t) : EndRight (t.shiftLine d) := by
  intro s hs
  simp only [Tok.shiftLine, Option.map_eq_some_iff] at hs
  obtain ⟨a, ha, rfl⟩ := hs
  have := h a ha
  show a.ec = endCol (a.down d) t.text
  rw [endCol_down]; exact this

theorem endRight_shiftCol {t : Tok} (c : Int) (h : EndRight t) : EndRight (t.shiftCol c) := by
  intro s hs
  simp only [Tok.shiftCol, Option.map_eq_some_iff] at hs
  obtain ⟨a, ha, rfl⟩ := hs
  have := h a ha
  show (a.shift (-c)).ec = endCol (a.shift (-c)) t.text
  unfold Span.shift Span.isSplit endCol at *
  by_cases hb : a.bl = a.el
  · rw [if_neg (by simp [hb])]
    rw [if_pos hb] at this
    dsimp only
    rw [if_pos hb]
    omega
  · rw [if_pos (by simp [hb])]
    rw [if_neg hb] at this
    dsimp only
    rw [if_neg hb]

/-- **C20** The end columns of the tokens stay right. -/
theorem C20_ends (l l' n new : LLine) (i : Nat) (he : ∀ t ∈ l.frags, EndRight t)
    (h : l.splitAfter i new = .ok (true, l', n)) :
    (∀ t ∈ l'.frags, EndRight t) ∧ ∀ t ∈ n.frags, EndRight t := by
  cases splitAfter_outcome h with
  | between hat hb hf hu hsu =>
    refine ⟨fun t ht => he t (List.mem_of_mem_take ht), ?_⟩
    intro t ht
    obtain ⟨v, hv, rfl⟩ := List.mem_map.mp ht
    exact endRight_shiftLine _ (he v (List.mem_of_mem_drop (by rw [hat.rest]; simp [hv])))
  | inside hat hu hsu h1 h2 =>
    refine ⟨fun t ht => he t (List.mem_of_mem_take ht), ?_⟩
    intro t ht
    simp only [List.map_append, List.map_map, List.mem_append, List.mem_map, Function.comp] at ht
    rcases ht with ⟨v, hv, rfl⟩ | ⟨v, hv, rfl⟩
    · exact endRight_shiftLine _ (endRight_shiftLine _ (endRight_shiftCol _
        (he v (List.mem_of_mem_drop (by rw [hat.rest]; simp [hv])))))
    · exact endRight_shiftLine _ (endRight_shiftLine _
        (he v (List.mem_of_mem_drop (by rw [hat.rest]; simp [hv]))))

/-- **C20** Everything else of the line is kept – its label, category and marks – but for the list of
statements, which is emptied; the new line has no label and no marks. -/
theorem C20_fields (l l' n new : LLine) (i : Nat) (h : l.splitAfter i new = .ok (true, l', n)) :
    l'.label = l.label ∧ l'.cat = l.cat ∧ l'.suppress = l.suppress ∧
    l'.needsReformat = l.needsReformat ∧ l'.stmts = [] ∧ l'.semis = -1 ∧
    n = { layout := n.layout, frags := n.frags } := by
  cases splitAfter_outcome h with
  | between => exact ⟨rfl, rfl, rfl, rfl, rfl, rfl, rfl⟩
  | inside => exact ⟨rfl, rfl, rfl, rfl, rfl, rfl, rfl⟩

/-- What `make_uncontinued` does to the text at the right end. -/
theorem makeUncontinued_right (f : FileLine) (a c : Str) (ha : ∀ x ∈ a.tail, x = ' ')
    (h0 : ∀ x, a.head? = some x → x = '&') (hr : f.right_txt = a ++ '!' :: c) :
    f.makeUncontinued.right_txt = '!' :: c ∧ f.makeUncontinued.right_space = f.right_space ++ blanks a.length := by
  unfold FileLine.makeUncontinued
  dsimp only
  cases a with
  | nil =>
    rw [List.nil_append] at hr
    rw [hr]
    dsimp only
    rw [if_neg (by decide), findFirst_blank_cons (by decide)]
    exact ⟨rfl, rfl⟩
  | cons x xs =>
    have hx : x = '&' := h0 x rfl
    subst hx
    have hxs : xs = blanks xs.length := List.eq_replicate_iff.mpr ⟨rfl, ha⟩
    rw [List.cons_append] at hr
    rw [hr]
    dsimp only
    rw [if_pos rfl]
    have hfind : findFirstNotOf [' '] (' ' :: (xs ++ '!' :: c)) = some (xs.length + 1) := by
      rw [hxs]
      generalize xs.length = m
      rw [show (blanks m).length + 1 = m + 1 by simp [blanks]]
      have : ∀ m, findFirstNotOf [' '] (blanks m ++ '!' :: c) = some m := by
        intro m
        induction m with
        | zero => rfl
        | succ m ih =>
          unfold findFirstNotOf at *
          rw [show blanks (m + 1) ++ '!' :: c = ' ' :: (blanks m ++ '!' :: c) from rfl, List.findIdx?_cons, ih]
          simp
      exact this (m + 1)
    rw [hfind]
    dsimp only
    refine ⟨?_, by simp⟩
    rw [List.drop_succ_cons, List.drop_left' rfl]

/-- **C20** A trailing comment stays with the line, and in its column, when the text behind the token
moves to the new line. -/
theorem C20_comment (f f1 : FileLine) (ec : Int) (a c : Str) (ha : ∀ x ∈ a.tail, x = ' ')
    (h0 : ∀ x, a.head? = some x → x = '&') (hr : f.right_txt = a ++ '!' :: c)
    (h : splitSource f ec = .ok f1) :
    f1.right_txt = '!' :: c ∧ f1.rightColumn = f.rightColumn + a.length := by
  obtain ⟨k, rfl, hk, rfl⟩ := splitSource_ok h
  have hne : f.right_txt ≠ [] := by rw [hr]; simp
  obtain ⟨h1, h2⟩ := makeUncontinued_right
    ({ f with right_space := if f.right_txt = [] then f.right_space else blanks (f.right_space.length + (f.main_txt.length - k)), main_txt := f.main_txt.take k } : FileLine) a c ha h0 hr
  refine ⟨h1, ?_⟩
  obtain ⟨g1, g2, g3, _⟩ := makeUncontinued_parts
    ({ f with right_space := if f.right_txt = [] then f.right_space else blanks (f.right_space.length + (f.main_txt.length - k)), main_txt := f.main_txt.take k } : FileLine)
  unfold FileLine.rightColumn FileLine.leftWidth
  rw [g1, g2, g3, h2]
  dsimp only
  rw [if_neg hne, List.length_append, List.length_take]
  simp only [blanks, List.length_replicate]
  omega

/-- `set_leading_spaces` on a line without left text and comment. -/
theorem setLeading_plain (f : FileLine) (n : Nat) (hl : f.left_txt = []) (hr : f.right_txt = [] ∨ f.right_txt = ['&'] ∨ ∃ t, f.right_txt = '!' :: t) :
    ∃ g b, Ind.setLeading f n = .ok (g, b) ∧
      (f.isFortran = true → g.left_space.length = n ∧ g.left_txt = []) := by
  unfold Ind.setLeading
  rw [if_pos (by omega)]
  simp only [Int.toNat_natCast]
  unfold FileLine.setLeadingSpaces
  cases hc : f.bits.comment with
  | true =>
    rw [if_pos rfl]
    refine ⟨_, _, rfl, ?_⟩
    intro hf; simp [FileLine.isFortran, FileLine.isTrivial, hc] at hf
  | false =>
    rw [if_neg (by simp)]
    cases hf : f.isFortran with
    | false => simp
    | true =>
      rw [if_pos rfl]
      unfold FileLine.moveMain
      rw [if_pos hl]
      by_cases hn : f.left_space.length = n
      · rw [if_pos hn]
        exact ⟨f, false, rfl, fun _ => ⟨hn, hl⟩⟩
      · rw [if_neg hn]
        simp only [Res.ok_bind]
        have hadj : ∃ h, FileLine.adjustRight { f with left_space := blanks n } (.val ((n : Int) - f.left_space.length)) = .ok h := by
          unfold FileLine.adjustRight
          rcases hr with hr | hr | ⟨t, hr⟩
          · rw [if_pos hr]; exact ⟨_, rfl⟩
          · rw [if_neg (by simp [hr])]
            dsimp only
            rw [if_neg (by omega), hr, show findChar '!' ['&'] = none by decide]
            exact ⟨_, rfl⟩
          · rw [if_neg (by simp [hr])]
            dsimp only
            rw [if_neg (by omega), hr, show findChar '!' ('!' :: t) = some 0 from by simp [findChar, List.findIdx?_cons]]
            dsimp only
            split
            · rw [if_pos (by omega)]; exact ⟨_, rfl⟩
            · exact ⟨_, rfl⟩
        obtain ⟨h, hh⟩ := hadj
        refine ⟨h, true, by rw [hh]; rfl, fun _ => ?_⟩
        obtain ⟨_, a2, a3⟩ := adjustRight_same hh
        rw [a2, a3]
        exact ⟨by simp [blanks], hl⟩

theorem mainFirstCol_pos {f : FileLine} (h : f.main_txt ≠ []) : 0 < f.mainFirstCol := by
  unfold FileLine.mainFirstCol
  simp [h]
  omega

/-- **C20** Splitting succeeds when the positions are right and a further statement begins on the same
physical line – provided that there are more tokens than physical lines up to there and that the first
physical line has text.  The new line then begins in the column of the first one. -/
theorem C20_defined_partial (l new : LLine) (i : Nat) (t u : Tok) (s su : Span) (f0 : FileLine)
    (hg : GoodPositions l.layout l.frags) (ht : l.frags[i]? = some t) (hs : t.span = some s)
    (he : EndRight t) (h0 : l.layout[0]? = some f0) (hm : f0.main_txt ≠ [])
    (hsz : s.el < l.frags.length) (hec : 0 ≤ s.ec)
    (hu : u ∈ l.frags.drop (i + 1)) (hns : u.token ≠ Tag.TK_SEMICOLON) (hsu : u.span = some su)
    (hline : su.bl = s.el) :
    ∃ l' n f2 fs, l.splitAfter i new = .ok (true, l', n) ∧ n.layout = f2 :: fs ∧
      ∀ f, l.layout[s.el.toNat]? = some f → f.isFortran = true →
        (f2.left_space.length : Int) = f0.mainFirstCol - 1 ∧ f2.left_txt = [] := by
  obtain ⟨w, hw, hpl⟩ := hg.1 t (List.mem_of_getElem? ht)
  rw [hs] at hw; obtain rfl := Option.some.inj hw
  have hpi := places_interval hpl
  have hpb := places_bl_le hpl
  have hE := he s hs
  obtain ⟨bl, bc, k, ec, fb, f, rfl, q1, q2, q3, q4, q5, q6⟩ := hpl
  dsimp only at *
  simp only [Int.toNat_natCast] at *
  have hcut : l.frags = l.frags.take i ++ t :: l.frags.drop (i + 1) := by
    have hi := List.getElem?_eq_some_iff.mp ht
    conv_lhs => rw [← List.take_append_drop i l.frags, List.drop_eq_getElem_cons hi.1, hi.2]
  have hgd := goodPositions_sublist (List.drop_sublist (i + 1) l.frags) hg
  have hpd : ∀ v ∈ l.frags.drop (i + 1), ∀ sv, v.span = some sv → (k : Int) ≤ sv.bl := by
    intro v hv sv hsv
    have hpw := hg.2
    rw [hcut, List.pairwise_append] at hpw
    have hp := (List.pairwise_cons.mp hpw.2.1).1 v hv _ sv hs hsv
    rcases hp with hp | hp <;> dsimp only at hp <;> omega
  -- the tokens on the line
  obtain ⟨⟨x, y⟩, hxy⟩ := takeOnLine_ok (line := k) (ts := l.frags.drop (i + 1)) (by
    intro v hv; obtain ⟨sv, hsv, _⟩ := hgd.1 v hv; rw [hsv]; simp)
  obtain ⟨e1, e2, e3⟩ := takeOnLine_spec hxy
  have hux : u ∈ x := by
    rw [e1] at hu
    rcases List.mem_append.mp hu with hu | hu
    · exact hu
    · exfalso
      cases y with
      | nil => simp at hu
      | cons v vs =>
        obtain ⟨sv, hsv, hne⟩ := e3 v rfl
        have hvm : v ∈ l.frags.drop (i + 1) := by rw [e1]; simp
        have hkv := hpd v hvm sv hsv
        rcases List.mem_cons.mp hu with rfl | hu
        · rw [hsu] at hsv; obtain rfl := Option.some.inj hsv; exact hne hline
        · obtain ⟨w, hw, hplv⟩ := hgd.1 v hvm
          rw [hsv] at hw; obtain rfl := Option.some.inj hw
          have hpw := hgd.2
          rw [e1, List.pairwise_append] at hpw
          have hp := (List.pairwise_cons.mp hpw.2.1).1 u hu sv su hsv hsu
          have := precedes_bl hp hplv
          omega
  obtain ⟨semis, d1, d2, d3⟩ := dropSemis_spec x
  cases hd : dropSemis x with
  | nil =>
    exfalso
    rw [hd, List.append_nil] at d1
    rw [d1] at hux
    exact hns (d2 u hux)
  | cons v vs =>
    have hvx : v ∈ x := by rw [d1, hd]; simp
    obtain ⟨sv, hsv, hvb⟩ := e2 v hvx
    obtain ⟨w, hw, hplv⟩ := hgd.1 v (by rw [e1]; simp [hvx])
    rw [hsv] at hw; obtain rfl := Option.some.inj hw
    have hv0 := (places_bl_le hplv).2.2
    -- the two lines
    have hecf : ec.toNat ≤ f.main_txt.length := by
      have h3 := hpi.2.2.1 f q2
      rw [← hE] at h3
      exact h3
    obtain ⟨c, rfl⟩ : ∃ c : Nat, ec = c := ⟨ec.toNat, by omega⟩
    obtain ⟨f1, hf1⟩ := splitSource_of (f := f) (c := c) (by omega)
    obtain ⟨n0, hn0⟩ : ∃ n0 : Nat, (f0.mainFirstCol : Int) - 1 = n0 := ⟨f0.mainFirstCol - 1, by
      have := mainFirstCol_pos hm; omega⟩
    have hnew : ∃ f2, splitNew f sv.bc n0 = .ok f2 ∧ (f.isFortran = true → f2.left_space.length = n0 ∧ f2.left_txt = []) := by
      unfold splitNew
      simp only [if_neg (show ¬ sv.bc < 0 by omega)]
      cases hcont : f.bits.continued with
      | true =>
        unfold assignBlanks
        simp only [if_true, if_neg (show ¬ sv.bc < 0 by omega), Res.ok_bind]
        obtain ⟨g, b, hg1, hg2⟩ := setLeading_plain { f with main_txt := f.main_txt.drop sv.bc.toNat, right_txt := ['&'], right_space := blanks sv.bc.toNat, left_txt := [] } n0 rfl (Or.inr (Or.inl rfl))
        rw [hg1]
        exact ⟨g, rfl, hg2⟩
      | false =>
        simp only [Bool.false_eq_true, if_false, Res.ok_bind]
        obtain ⟨g, b, hg1, hg2⟩ := setLeading_plain { f with main_txt := f.main_txt.drop sv.bc.toNat, right_txt := [], right_space := [], left_txt := [] } n0 rfl (Or.inl rfl)
        rw [hg1]
        exact ⟨g, rfl, hg2⟩
    obtain ⟨f2, hf2, hcol⟩ := hnew
    have hi := (List.getElem?_eq_some_iff.mp ht).1
    have key : ∃ l' n, l.splitAfter i new = .ok (true, l', n) ∧ n.layout = f2 :: l.layout.drop (k + 1) := by
      unfold LLine.splitAfter
      rw [if_neg (by omega), ht]
      dsimp only
      rw [hs]
      dsimp only
      rw [if_neg (by omega), h0]
      dsimp only
      rw [hxy]
      simp only [Res.ok_bind]
      rw [if_neg (by omega), Int.toNat_natCast, q2]
      dsimp only
      rw [hd]
      dsimp only
      rw [hsv]
      dsimp only
      rw [hf1, hn0, hf2]
      simp only [Res.ok_bind]
      unfold splitFinish
      rw [if_neg (by simp)]
      simp only [List.map_cons, List.cons_append, List.head?_cons, Tok.shiftLine, Tok.shiftCol, hsv, Option.map_some]
      exact ⟨_, _, rfl, rfl⟩
    obtain ⟨l', n, hk1, hk2⟩ := key
    refine ⟨l', n, f2, _, hk1, hk2, ?_⟩
    intro f' hf' hff
    rw [q2] at hf'; obtain rfl := Option.some.inj hf'
    obtain ⟨c1, c2⟩ := hcol hff
    exact ⟨by rw [c1, hn0], c2⟩

/-! ## Statements -/

theorem segments_append_semi (a b : List Tok) (t : Tok) (h : t.isSemi = true) :
    segments (a ++ t :: b) = segments a ++ segments b := by
  induction a with
  | nil => rw [List.nil_append, segments_semi b h]; rfl
  | cons u us ih =>
    by_cases hu : u.isSemi = true
    · rw [List.cons_append, segments_semi _ hu, segments_semi _ hu, ih]; rfl
    · have hu' : u.isSemi = false := by simpa using hu
      obtain ⟨s, ss, hs⟩ := segments_shape us
      rw [List.cons_append, segments_cons hu' hs]
      rw [hs] at ih
      rw [segments_cons hu' (s := s) (ss := ss ++ segments b) (by simpa using ih)]
      rfl

theorem realSegments_semis (semis rest : List Tok) (h : ∀ u ∈ semis, u.token = Tag.TK_SEMICOLON) :
    realSegments (semis ++ rest) = realSegments rest := by
  induction semis with
  | nil => rfl
  | cons u us ih =>
    unfold realSegments at *
    rw [List.cons_append, segments_semi _ ((isSemi_iff u).mpr (h u (by simp)))]
    simpa using ih (fun v hv => h v (by simp [hv]))

theorem segments_same {ts us : List Tok} (h : List.Forall₂ SameToken ts us) :
    List.Forall₂ (List.Forall₂ SameToken) (segments ts) (segments us) := by
  induction h with
  | nil => exact .cons .nil .nil
  | @cons t u ts us htu _ ih =>
    by_cases ht : t.isSemi = true
    · have hu : u.isSemi = true := by
        rw [isSemi_iff] at ht ⊢; rw [htu.1, ht]
      rw [segments_semi _ ht, segments_semi _ hu]
      exact .cons .nil ih
    · have ht' : t.isSemi = false := by simpa using ht
      have hu' : u.isSemi = false := by
        cases hc : u.isSemi with
        | false => rfl
        | true => rw [isSemi_iff, htu.1, ← isSemi_iff] at hc; exact absurd hc ht
      obtain ⟨s, ss, hs⟩ := segments_shape ts
      obtain ⟨s', ss', hs'⟩ := segments_shape us
      rw [segments_cons ht' hs, segments_cons hu' hs']
      rw [hs, hs'] at ih
      cases ih with
      | cons h1 h2 => exact .cons (.cons htu h1) h2

theorem realSegments_same {ts us : List Tok} (h : List.Forall₂ SameToken ts us) :
    List.Forall₂ (List.Forall₂ SameToken) (realSegments ts) (realSegments us) := by
  have := segments_same h
  unfold realSegments
  generalize segments ts = x at *
  generalize segments us = y at *
  induction this with
  | nil => exact .nil
  | @cons a b as bs hab _ ih =>
    have : a.isEmpty = b.isEmpty := by cases hab <;> rfl
    rw [List.filter_cons, List.filter_cons, this]
    split
    · exact .cons hab ih
    · exact ih

/-- **C20** Split before a semicolon, and the lists of statements made again, the statements of the two
parts are those of the line, in this order. -/
theorem C20_stmts (l l' n new : LLine) (i : Nat) (t : Tok) (ht : l.frags[i + 1]? = some t)
    (hsemi : t.token = Tag.TK_SEMICOLON) (h : l.splitAfter i new = .ok (true, l', n)) :
    ∃ moved, l.initStmts.stmts.map (slice l.frags) = l'.initStmts.stmts.map (slice l'.frags) ++ moved ∧
      List.Forall₂ (List.Forall₂ SameToken) moved (n.initStmts.stmts.map (slice n.frags)) := by
  obtain ⟨_, h2, _, semis, rest, ⟨h4, h5⟩, h6, _, _⟩ := C20_tokens l l' n new i h
  rw [(C16_statements l).1, (C16_statements l').1, (C16_statements n).1]
  refine ⟨realSegments rest, ?_, realSegments_same h6⟩
  have hd : l.frags.drop (i + 1) = t :: l.frags.drop (i + 2) := by
    have := List.getElem?_eq_some_iff.mp ht
    rw [List.drop_eq_getElem_cons this.1, this.2]
  have hts := (isSemi_iff t).mpr hsemi
  have hr : realSegments (l.frags.drop (i + 2)) = realSegments rest := by
    rw [← realSegments_semis semis rest h5, ← h4, hd]
    unfold realSegments
    rw [segments_semi _ hts]
    simp
  conv_lhs => rw [← List.take_append_drop (i + 1) l.frags, hd, segments_append_semi _ _ _ hts,
    List.filter_append]
  rw [h2, ← hr]
  rfl

end FLPR
