import Verif.LogicalLine.SplitProps
/-! # The text of the parts of a split line is that of their tokens (C20) -/

namespace FLPR
open Spec

/-- The number of characters in front of a token. -/
def startOff (lay : List FileLine) (s : Span) : Nat :=
  (allText (lay.take s.bl.toNat)).length + s.bc.toNat

/-- The number of characters up to the end of a token. -/
def stopOff (lay : List FileLine) (s : Span) (text : Str) : Nat :=
  (allText (lay.take s.el.toNat)).length + (endCol s text).toNat

theorem allText_append (a b : List FileLine) : allText (a ++ b) = allText a ++ allText b := by
  unfold allText; rw [List.flatMap_append]

theorem allText_take_succ {lay : List FileLine} {k : Nat} {f : FileLine} (h : lay[k]? = some f) :
    allText (lay.take (k + 1)) = allText (lay.take k) ++ f.main_txt := by
  rw [List.take_add_one, h, allText_append]
  congr 1
  simp [allText]

theorem allText_take_mono (lay : List FileLine) {a b : Nat} (h : a ≤ b) :
    (allText (lay.take a)).length ≤ (allText (lay.take b)).length := by
  obtain ⟨d, rfl⟩ := Nat.exists_eq_add_of_le h
  rw [List.take_add, allText_append, List.length_append]
  omega

/-- The text of a token is found between its two ends. -/
theorem places_interval {lay : List FileLine} {s : Span} {text : Str} (h : Places lay s text) :
    startOff lay s ≤ stopOff lay s text ∧ stopOff lay s text ≤ (allText lay).length ∧
    (∀ f, lay[s.el.toNat]? = some f → (endCol s text).toNat ≤ f.main_txt.length) ∧
    squeeze (((allText lay).drop (startOff lay s)).take (stopOff lay s text - startOff lay s)) =
      squeeze text := by
  obtain ⟨bl, bc, el, ec, fb, fe, rfl, h1, h2, h3, h4, h5, h6⟩ := h
  unfold startOff stopOff endCol
  simp only [Int.toNat_natCast, Int.ofNat_inj]
  have hal := allText_around h1
  have hdrop : (allText lay).drop ((allText (lay.take bl)).length + bc) =
      fb.main_txt.drop bc ++ allText (lay.drop (bl + 1)) := by
    rw [hal, List.append_assoc, ← List.drop_drop, List.drop_left' rfl,
      List.drop_append_of_le_length h4]
  by_cases hbe : bl = el
  · subst hbe
    rw [h1] at h2; obtain rfl := Option.some.inj h2
    simp only [if_true]
    have ht := h5 rfl
    have hlen := congrArg List.length ht
    rw [List.length_take, List.length_drop] at hlen
    have hn : ((bc : Int) + (text.length : Int)).toNat = bc + text.length := by omega
    rw [hn]
    refine ⟨by omega, ?_, ?_, ?_⟩
    · rw [hal, List.length_append, List.length_append]; omega
    · intro f hf; rw [h1] at hf; obtain rfl := Option.some.inj hf; omega
    · rw [hdrop, show (allText (lay.take bl)).length + (bc + text.length) -
        ((allText (lay.take bl)).length + bc) = text.length by omega,
        List.take_append_of_le_length (by rw [List.length_drop]; omega), ht]
  · rw [if_neg hbe]
    obtain ⟨h7, h8⟩ := h6 (by omega)
    have hel := allText_around h2
    have hmid : lay.take el = lay.take (bl + 1) ++ (lay.drop (bl + 1)).take (el - bl - 1) := by
      rw [← List.take_add]; congr 1; omega
    have hmidl : (allText (lay.take el)).length = (allText (lay.take bl)).length + fb.main_txt.length +
        (((lay.drop (bl + 1)).take (el - bl - 1)).flatMap (·.main_txt)).length := by
      rw [hmid, allText_append, allText_take_succ h1, List.length_append, List.length_append]; rfl
    have hrest : allText (lay.drop (bl + 1)) =
        ((lay.drop (bl + 1)).take (el - bl - 1)).flatMap (·.main_txt) ++
          (fe.main_txt ++ allText (lay.drop (el + 1))) := by
      have hk := (List.getElem?_eq_some_iff.mp h2)
      have : lay.drop (bl + 1) = (lay.drop (bl + 1)).take (el - bl - 1) ++ fe :: lay.drop (el + 1) := by
        conv_lhs => rw [← List.take_append_drop (el - bl - 1) (lay.drop (bl + 1))]
        congr 1
        rw [List.drop_drop, show bl + 1 + (el - bl - 1) = el by omega, List.drop_eq_getElem_cons hk.1, hk.2]
      conv_lhs => rw [this]
      rw [allText_append]
      rfl
    refine ⟨by omega, ?_, ?_, ?_⟩
    · rw [hel, List.length_append, List.length_append]; omega
    · intro f hf; rw [h2] at hf; obtain rfl := Option.some.inj hf; exact h7
    · rw [hdrop, hrest, h8]
      congr 1
      generalize hM : ((lay.drop (bl + 1)).take (el - bl - 1)).flatMap (·.main_txt) = M at *
      rw [show (allText (lay.take el)).length + ec.toNat - ((allText (lay.take bl)).length + bc) =
        (fb.main_txt.drop bc ++ M).length + ec.toNat by
          rw [List.length_append, List.length_drop]; omega]
      rw [← List.append_assoc, List.take_length_add_append,
        List.take_append_of_le_length h7]

theorem precedes_offs {lay : List FileLine} {s s' : Span} {a b : Str} (hp : Places lay s a)
    (hp' : Places lay s' b) (h : Precedes s a s') : stopOff lay s a ≤ startOff lay s' := by
  have h1 := places_interval hp
  have h0 := places_bl_le hp'
  unfold startOff stopOff at *
  obtain ⟨bl, bc, el, ec, fb, fe, rfl, _, h2, _⟩ := hp
  dsimp only at *
  simp only [Int.toNat_natCast] at *
  rcases h with h | ⟨h, h'⟩
  · dsimp only at h
    have hm := allText_take_mono lay (a := el + 1) (b := s'.bl.toNat) (by omega)
    have hf := h1.2.2.1 fe h2
    rw [allText_take_succ h2, List.length_append] at hm
    omega
  · dsimp only at h h'
    rw [show s'.bl.toNat = el by omega]
    omega

theorem sublist_slice {flat : Str} {a b N : Nat} (h : a ≤ b) (hb : b ≤ N) :
    (squeeze (flat.take a) ++ squeeze ((flat.drop a).take (b - a))).Sublist (squeeze (flat.take N)) := by
  rw [← squeeze_append, ← List.take_add, show a + (b - a) = b by omega]
  unfold squeeze
  exact (List.Sublist.filter _ (List.take_sublist_take_left (l := flat) hb))

/-- The texts of tokens that end before character `N` are found there. -/
theorem texts_left {lay : List FileLine} (ts : List Tok) (hg : GoodPositions lay ts) :
    ∀ N, (∀ t ∈ ts, ∀ s, t.span = some s → stopOff lay s t.text ≤ N) →
      (squeeze (ts.flatMap (·.text))).Sublist (squeeze ((allText lay).take N)) := by
  induction ts using List.reverseRecOn with
  | nil => intro N _; exact List.nil_sublist _
  | append_singleton ts t ih =>
    intro N hN
    obtain ⟨s, hs, hpl⟩ := hg.1 t (by simp)
    obtain ⟨i1, i2, _, i4⟩ := places_interval hpl
    have hgt := goodPositions_sublist (List.sublist_append_left ts [t]) hg
    have hl := ih hgt (startOff lay s) (by
      intro u hu su hsu
      obtain ⟨w, hw, hplu⟩ := hgt.1 u hu
      rw [hsu] at hw; obtain rfl := Option.some.inj hw
      refine precedes_offs hplu hpl ?_
      exact (List.pairwise_append.mp hg.2).2.2 u hu t (by simp) su s hsu hs)
    rw [List.flatMap_append, List.flatMap_singleton, squeeze_append, ← i4]
    exact (List.Sublist.append hl (List.Sublist.refl _)).trans
      (sublist_slice i1 (hN t (by simp) s hs))

/-- The texts of tokens that begin behind character `N` are found there. -/
theorem texts_right {lay : List FileLine} (ts : List Tok) (hg : GoodPositions lay ts) :
    ∀ N, (∀ t ∈ ts, ∀ s, t.span = some s → N ≤ startOff lay s) →
      (squeeze (ts.flatMap (·.text))).Sublist (squeeze ((allText lay).drop N)) := by
  induction ts with
  | nil => intro N _; exact List.nil_sublist _
  | cons t ts ih =>
    intro N hN
    obtain ⟨s, hs, hpl⟩ := hg.1 t (by simp)
    obtain ⟨i1, i2, _, i4⟩ := places_interval hpl
    have hgt := goodPositions_sublist (List.sublist_cons_self t ts) hg
    have hl := ih hgt (stopOff lay s t.text) (by
      intro u hu su hsu
      obtain ⟨w, hw, hplu⟩ := hgt.1 u hu
      rw [hsu] at hw; obtain rfl := Option.some.inj hw
      refine precedes_offs hpl hplu ?_
      exact (List.pairwise_cons.mp hg.2).1 u hu s su hs hsu)
    have h0 := hN t (by simp) s hs
    rw [List.flatMap_cons, squeeze_append, ← i4]
    refine (List.Sublist.append (List.Sublist.refl _) hl).trans ?_
    rw [← squeeze_append]
    unfold squeeze
    refine List.Sublist.filter _ ?_
    have : ((allText lay).drop (startOff lay s)).take (stopOff lay s t.text - startOff lay s) ++
        (allText lay).drop (stopOff lay s t.text) = (allText lay).drop (startOff lay s) := by
      conv_rhs => rw [← List.take_append_drop (stopOff lay s t.text - startOff lay s)
        ((allText lay).drop (startOff lay s))]
      rw [List.drop_drop]
      congr 2; omega
    rw [this]
    exact List.drop_sublist_drop_left _ h0

/-- If the text of a line is that of its tokens, then it is so up to and from every place between two
tokens. -/
theorem texts_cut {lay : List FileLine} {xs ys : List Tok} (hg : GoodPositions lay (xs ++ ys))
    (ht : TextOfTokens lay (xs ++ ys)) (N : Nat)
    (h1 : ∀ t ∈ xs, ∀ s, t.span = some s → stopOff lay s t.text ≤ N)
    (h2 : ∀ t ∈ ys, ∀ s, t.span = some s → N ≤ startOff lay s) :
    squeeze ((allText lay).take N) = squeeze (xs.flatMap (·.text)) ∧
    squeeze ((allText lay).drop N) = squeeze (ys.flatMap (·.text)) := by
  have a1 := texts_left xs (goodPositions_sublist (List.sublist_append_left _ _) hg) N h1
  have a2 := texts_right ys (goodPositions_sublist (List.sublist_append_right _ _) hg) N h2
  unfold TextOfTokens at ht
  rw [← List.take_append_drop N (allText lay), squeeze_append, List.flatMap_append, squeeze_append] at ht
  have hl := congrArg List.length ht
  simp only [List.length_append] at hl
  have b1 := a1.length_le
  have b2 := a2.length_le
  rw [← List.take_append_drop N (allText lay)] at hl
  exact ⟨(a1.eq_of_length (by simp at *; omega)).symm, (a2.eq_of_length (by simp at *; omega)).symm⟩

/-- **C20** If the text of the line was that of its tokens, blanks aside, then so is the text of the new
line, and so is the text of the line itself – except that semicolons behind the token stay in the text
when nothing else follows on the physical line, though they are no longer among the tokens. -/
theorem C20_no_text_lost (l l' n new : LLine) (i : Nat) (t : Tok)
    (hg : GoodPositions l.layout l.frags) (ht : l.frags[i]? = some t)
    (he : EndRight t) (hc : CommentsApart l.layout) (htx : TextOfTokens l.layout l.frags)
    (hone : ∀ u ∈ l.frags, u.token = Tag.TK_SEMICOLON → OnOneLine u)
    (h : l.splitAfter i new = .ok (true, l', n)) :
    TextOfTokens n.layout n.frags ∧
    ∃ semis rest, Remainder l.frags i semis rest ∧ List.Forall₂ SameToken rest n.frags ∧
      (TextOfTokens l'.layout l'.frags ∨
        (TextOfTokens l'.layout (l'.frags ++ semis) ∧
          allText l.layout = allText l'.layout ++ allText n.layout)) := by
  have hcut : l.frags = l.frags.take (i + 1) ++ l.frags.drop (i + 1) := (List.take_append_drop _ _).symm
  have hi := List.getElem?_eq_some_iff.mp ht
  have hf2 : ∀ {a b : List Tok}, List.Forall₂ SameToken a b →
      b.flatMap (·.text) = a.flatMap (·.text) := by
    intro a b hab
    induction hab with
    | nil => rfl
    | cons h _ ih => rw [List.flatMap_cons, List.flatMap_cons, ih, h.2.2.2.1]
  -- the end of the token
  have hstop : ∀ s, t.span = some s → ∀ u ∈ l.frags.take (i + 1), ∀ su, u.span = some su →
      stopOff l.layout su u.text ≤ stopOff l.layout s t.text := by
    intro s hs u hu su hsu
    obtain ⟨w, hw, hplt⟩ := hg.1 t (List.mem_of_getElem? ht)
    rw [hs] at hw; obtain rfl := Option.some.inj hw
    obtain ⟨w, hw, hplu⟩ := hg.1 u (List.mem_of_mem_take hu)
    rw [hsu] at hw; obtain rfl := Option.some.inj hw
    have htake : l.frags.take (i + 1) = l.frags.take i ++ [t] := by
      rw [List.take_add_one, ht]; rfl
    rw [htake] at hu
    rcases List.mem_append.mp hu with hu | hu
    · have hpw := hg.2
      rw [hcut, htake, List.append_assoc] at hpw
      have := (List.pairwise_append.mp hpw).2.2 u hu t (by simp) su s hsu hs
      exact (precedes_offs hplu hplt this).trans (places_interval hplt).1
    · simp at hu; subst hu
      rw [hs] at hsu; obtain rfl := Option.some.inj hsu
      exact le_rfl
  obtain ⟨s0, hs0, hpl0⟩ := hg.1 t (List.mem_of_getElem? ht)
  have hafter : ∀ u ∈ l.frags.drop (i + 1), ∀ su, u.span = some su →
      stopOff l.layout s0 t.text ≤ startOff l.layout su := by
    intro u hu su hsu
    obtain ⟨w, hw, hplu⟩ := hg.1 u (List.mem_of_mem_drop hu)
    rw [hsu] at hw; obtain rfl := Option.some.inj hw
    have hdrop : l.frags.drop i = t :: l.frags.drop (i + 1) := by
      rw [List.drop_eq_getElem_cons hi.1, hi.2]
    have hpw := hg.2.sublist (List.drop_sublist i l.frags)
    rw [hdrop] at hpw
    exact precedes_offs hpl0 hplu ((List.pairwise_cons.mp hpw).1 u hu s0 su hs0 hsu)
  cases splitAfter_outcome h with
  | between hat hb hf hu hsu =>
    rename_i t' s k f f0 semis later fs u su
    have htt := hat.tok
    rw [ht] at htt; obtain rfl := Option.some.inj htt
    have hss := hat.span
    rw [hs0] at hss; obtain rfl := Option.some.inj hss
    have hfs : allText fs = allText (l.layout.drop (k + 1)) := by
      unfold allText; rw [List.flatMap_def, (splitFollow_main hf).1, ← List.flatMap_def]
    have hl' : allText (l.layout.take k ++ [f.makeUncontinued]) = allText (l.layout.take (k + 1)) := by
      rw [allText_take_succ hat.line, allText_append]
      congr 1
      simp [allText, (makeUncontinued_parts f).1]
    have hsplit : allText l.layout = allText (l.layout.take (k + 1)) ++ allText (l.layout.drop (k + 1)) := by
      rw [← allText_append, List.take_append_drop]
    -- cut at the end of the physical line
    have hdrop : l.frags = (l.frags.take (i + 1) ++ semis) ++ later := by
      have := hat.rest
      rw [List.append_nil] at this
      rw [List.append_assoc, ← this, List.take_append_drop]
    have hcutN := texts_cut (xs := l.frags.take (i + 1) ++ semis) (ys := later)
      (by rw [← hdrop]; exact hg) (by rw [← hdrop]; exact htx) (allText (l.layout.take (k + 1))).length
      (by
        intro v hv sv hsv
        obtain ⟨w, hw, hplv⟩ := hg.1 v (by
          rw [hdrop]; exact List.mem_append_left _ hv)
        rw [hsv] at hw; obtain rfl := Option.some.inj hw
        have hel : sv.el ≤ k := by
          rcases List.mem_append.mp hv with hv | hv
          · have htake : l.frags.take (i + 1) = l.frags.take i ++ [t] := by
              rw [List.take_add_one, ht]; rfl
            rw [htake] at hv
            rcases List.mem_append.mp hv with hv | hv
            · have hpw := hg.2
              rw [hcut, htake, List.append_assoc] at hpw
              have hp := (List.pairwise_append.mp hpw).2.2 v hv t (by simp) sv s0 hsv hs0
              have := places_bl_le hpl0
              have := hat.el
              rcases hp with hp | hp <;> omega
            · simp at hv; subst hv
              rw [hs0] at hsv; obtain rfl := Option.some.inj hsv
              have := hat.el; omega
          · -- a semicolon that begins on line `k` and precedes the first token of a later line
            obtain ⟨x, hx, hxb⟩ := hat.onLine v (by simp [hv])
            rw [hsv] at hx; obtain rfl := Option.some.inj hx
            have := hone v (by rw [hdrop]; simp [hv]) (hat.semi v hv) sv hsv
            omega
        have hev := (places_interval hplv).2.2.1
        unfold stopOff
        obtain ⟨bl, bc, el, ec, fb, fe, rfl, q1, q2, q3⟩ := hplv
        simp only [Int.toNat_natCast] at *
        have hq := hev fe q2
        have hm := allText_take_mono l.layout (a := el + 1) (b := k + 1) (by omega)
        rw [allText_take_succ q2, List.length_append] at hm
        omega)
      (by
        intro v hv sv hsv
        have := (hat.later_bl hg).2 v hv sv hsv
        have hm := allText_take_mono l.layout (a := k + 1) (b := sv.bl.toNat) (by omega)
        unfold startOff
        omega)
    have hT : (allText l.layout).take (allText (l.layout.take (k + 1))).length =
        allText (l.layout.take (k + 1)) := by rw [hsplit, List.take_left' rfl]
    have hD : (allText l.layout).drop (allText (l.layout.take (k + 1))).length =
        allText (l.layout.drop (k + 1)) := by
      conv_lhs => arg 2; rw [hsplit]
      rw [List.drop_left' rfl]
    rw [hT, hD] at hcutN
    have hsame := forall2_map_same _ (sameToken_shiftLine (-su.bl)) later
    refine ⟨?_, semis, later, ⟨by simpa using hat.rest, hat.semi⟩, hsame, Or.inr ⟨?_, ?_⟩⟩
    · unfold TextOfTokens
      dsimp only
      rw [hf2 hsame, hfs]
      exact hcutN.2
    · unfold TextOfTokens
      dsimp only
      rw [hl']
      exact hcutN.1
    · dsimp only
      rw [hl', hfs]
      exact hsplit
  | inside hat hu hsu h1 h2 =>
    rename_i t' s k f f0 semis here later u su f1 f2
    have htt := hat.tok
    rw [ht] at htt; obtain rfl := Option.some.inj htt
    have hss := hat.span
    rw [hs0] at hss; obtain rfl := Option.some.inj hss
    have huh : u ∈ here := List.mem_of_head? hu
    have hub : su.bl = k := by
      obtain ⟨w, hw, hw2⟩ := hat.onLine u (by simp [huh])
      rw [hsu] at hw; obtain rfl := Option.some.inj hw; exact hw2
    have hdrop : l.frags = (l.frags.take (i + 1) ++ semis) ++ (here ++ later) := by
      have := hat.rest
      rw [List.append_assoc] at this
      rw [List.append_assoc, ← this, List.take_append_drop]
    have hum : u ∈ l.frags := by rw [hdrop]; simp [huh]
    obtain ⟨w, hw, hplu⟩ := hg.1 u hum
    rw [hsu] at hw; obtain rfl := Option.some.inj hw
    have hu0 := places_bl_le hplu
    obtain ⟨c, hec, hcl, rfl⟩ := splitSource_ok h1
    obtain ⟨hm2, _⟩ := splitNew_ok hu0.2.2 (hc f (List.mem_of_getElem? hat.line)) h2
    have hbc : su.bc.toNat ≤ f.main_txt.length := by
      obtain ⟨bl, bc, el, ec, fb, fe, rfl, q1, q2, q3, q4, q5⟩ := hplu
      dsimp only at *
      have : bl = k := by omega
      subst this
      rw [hat.line] at q1; obtain rfl := Option.some.inj q1
      simpa using q4
    have hal := allText_around hat.line
    have c1 := texts_cut (xs := l.frags.take (i + 1)) (ys := l.frags.drop (i + 1))
      (by rw [← hcut]; exact hg) (by rw [← hcut]; exact htx) (stopOff l.layout s0 t.text)
      (hstop s0 hs0) hafter
    have hN1 : stopOff l.layout s0 t.text = (allText (l.layout.take k)).length + c := by
      unfold stopOff
      rw [← he s0 hs0, hat.el, hec]
      simp
    have hN2 : startOff l.layout su = (allText (l.layout.take k)).length + su.bc.toNat := by
      unfold startOff
      rw [hub]; simp
    obtain ⟨hs', rfl⟩ : ∃ hs', here = u :: hs' := by
      cases here with
      | nil => simp at hu
      | cons a as => simp at hu; subst hu; exact ⟨as, rfl⟩
    have hpw := hg.2
    rw [hdrop] at hpw
    have c2 := texts_cut (xs := l.frags.take (i + 1) ++ semis) (ys := (u :: hs') ++ later)
      (by rw [← hdrop]; exact hg) (by rw [← hdrop]; exact htx) (startOff l.layout su)
      (by
        intro v hv sv hsv
        obtain ⟨w, hw, hplv⟩ := hg.1 v (by rw [hdrop]; exact List.mem_append_left _ hv)
        rw [hsv] at hw; obtain rfl := Option.some.inj hw
        exact precedes_offs hplv hplu ((List.pairwise_append.mp hpw).2.2 v hv u (by simp) sv su hsv hsu))
      (by
        intro v hv sv hsv
        obtain ⟨w, hw, hplv⟩ := hg.1 v (by rw [hdrop]; exact List.mem_append_right _ hv)
        rw [hsv] at hw; obtain rfl := Option.some.inj hw
        rcases List.mem_cons.mp hv with rfl | hv'
        · rw [hsu] at hsv; obtain rfl := Option.some.inj hsv; exact le_rfl
        · have hp := (List.pairwise_cons.mp (List.pairwise_append.mp hpw).2.1).1 v hv' su sv hsu hsv
          exact (places_interval hplu).1.trans (precedes_offs hplu hplv hp))
    have hT : (allText l.layout).take (stopOff l.layout s0 t.text) =
        allText (l.layout.take k) ++ f.main_txt.take c := by
      rw [hN1, hal, List.append_assoc, List.take_length_add_append, List.take_append_of_le_length hcl]
    have hD : (allText l.layout).drop (startOff l.layout su) =
        f.main_txt.drop su.bc.toNat ++ allText (l.layout.drop (k + 1)) := by
      rw [hN2, hal, List.append_assoc, ← List.drop_drop, List.drop_left' rfl,
        List.drop_append_of_le_length hbc]
    rw [hT] at c1
    rw [hD] at c2
    have hsame := inside_same (u :: hs') later su.bc k
    refine ⟨?_, semis, (u :: hs') ++ later, ⟨by simpa using hat.rest, hat.semi⟩, hsame, Or.inl ?_⟩
    · unfold TextOfTokens
      dsimp only
      rw [hf2 hsame, ← c2.2]
      congr 1
      unfold allText
      rw [List.flatMap_cons, hm2]
    · unfold TextOfTokens
      dsimp only
      rw [← c1.1]
      congr 1
      rw [allText_append]
      congr 1
      simp [allText, (makeUncontinued_parts _).1]

end FLPR
